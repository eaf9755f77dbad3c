import Verif.Tx.PropsSignUp
/-!
# C125: what calls within calls do

Rules for the outcome of a call, in terms of the calls it carries. They use neither the filters nor the dispatch
function of the model.
-/

namespace Verif.Tx

/-! ## Specification -/

/-- The calls nobody pays for. -/
inductive Free : Chain.Call → Prop
  | revokeByDelegator (p) : Free (.msa (.revokeDelegationByDelegator p))
  | revokeByProvider (d) : Free (.msa (.revokeDelegationByProvider d))
  | deleteKey (k) : Free (.msa (.deleteMsaPublicKey k))
  | retireMsa : Free (.msa .retireMsa)
  | retireHandle : Free (.handles .retire)

/-- The calls that on mainnet are left to governance. -/
inductive Barred : Chain.Call → Prop
  | createProvider (name) : Barred (.msa (.createProvider name))
  | createSchema (model kind location) : Barred (.schemas (.createSchema model kind location))
  | createSchemaV2 (model kind location settings) : Barred (.schemas (.createSchemaV2 model kind location settings))
  | createSchemaV3 (model kind location settings name) : Barred (.schemas (.createSchemaV3 model kind location settings name))

/-- Calls of which one is enough for a batch to be carried out. -/
inductive Batchable : Call → Prop
  | leaf (c) : ¬ Free c → ¬ Barred c → Batchable (.leaf c)

mutual
/-- `Outcome inAll c s r`: a call by `who`, inside of a `batch_all` or not, ends with the chain `r`, or fails. -/
inductive Outcome (cfg : Chain.Config) (bal : AccountId → Balance) (mainnet : Bool) (who : AccountId) :
    Bool → Call → Chain.State → Option Chain.State → Prop
  | call {inAll c s} : ¬ (mainnet = true ∧ Barred c) →
      Outcome cfg bal mainnet who inAll (.leaf c) s (Chain.dispatch cfg bal s (.signed who) c)
  | barred {inAll c s} : mainnet = true → Barred c → Outcome cfg bal mainnet who inAll (.leaf c) s none
  | batch {inAll k cs s r} : (∃ c ∈ cs, Batchable c) → (k = .batchAll → inAll = false) →
      Outcomes cfg bal mainnet who (inAll || k == .batchAll) k cs s r →
      Outcome cfg bal mainnet who inAll (.batch k cs) s r
  | noBatch {inAll k cs s} : (∀ c ∈ cs, ¬ Batchable c) → Outcome cfg bal mainnet who inAll (.batch k cs) s none
  | nested {cs s} : Outcome cfg bal mainnet who true (.batch .batchAll cs) s none
  | capacity {inAll c s r} : Outcome cfg bal mainnet who inAll c s r →
      Outcome cfg bal mainnet who inAll (.payWithCapacity c) s r
  | capacityBatch {inAll cs s r} : cs.length ≤ 10 → Outcomes cfg bal mainnet who true .batchAll cs s r →
      Outcome cfg bal mainnet who inAll (.payWithCapacityBatchAll cs) s r
  | tooMany {inAll cs s} : 10 < cs.length → Outcome cfg bal mainnet who inAll (.payWithCapacityBatchAll cs) s none
/-- Calls in turn: with the first one that fails, `batch` stops, `batch_all` fails, and `force_batch` goes on. -/
inductive Outcomes (cfg : Chain.Config) (bal : AccountId → Balance) (mainnet : Bool) (who : AccountId) :
    Bool → Runtime.BatchKind → List Call → Chain.State → Option Chain.State → Prop
  | done {inAll k s} : Outcomes cfg bal mainnet who inAll k [] s (some s)
  | next {inAll k c cs s s' r} : Outcome cfg bal mainnet who inAll c s (some s') →
      Outcomes cfg bal mainnet who inAll k cs s' r → Outcomes cfg bal mainnet who inAll k (c :: cs) s r
  | stop {inAll c cs s} : Outcome cfg bal mainnet who inAll c s none →
      Outcomes cfg bal mainnet who inAll .batch (c :: cs) s (some s)
  | undo {inAll c cs s} : Outcome cfg bal mainnet who inAll c s none →
      Outcomes cfg bal mainnet who inAll .batchAll (c :: cs) s none
  | skip {inAll c cs s r} : Outcome cfg bal mainnet who inAll c s none →
      Outcomes cfg bal mainnet who inAll .forceBatch cs s r → Outcomes cfg bal mainnet who inAll .forceBatch (c :: cs) s r
end

/-- The accounts after an included transaction: the number is used up, unless the call is a free one and the account
has nothing on the chain. -/
def Counted (s : State) (t : Signed) (after : Nonce.Accounts) : Prop :=
  let a := Nonce.getAccount s.accounts t.who
  ((∃ c, t.call = .leaf c ∧ Free c) ∧ a.existing = false → after = s.accounts) ∧
  (¬ ((∃ c, t.call = .leaf c ∧ Free c) ∧ a.existing = false) → after = s.accounts.insert t.who { a with nonce := t.nonce + 1 })

/-! ## Proofs -/

theorem free_iff (c : Chain.Call) : Runtime.paysNo (view c) = true ↔ Free c := by
  constructor
  · intro h
    cases c with
    | msa c => cases c <;> simp [view, Runtime.paysNo] at h <;> constructor
    | schemas c => cases c <;> simp [view, Runtime.paysNo] at h
    | messages c => cases c <;> simp [view, Runtime.paysNo] at h
    | handles c => cases c <;> simp [view, Runtime.paysNo] at h <;> constructor
    | storage c => cases c <;> simp [view, Runtime.paysNo] at h
    | capacity c => cases c <;> simp [view, Runtime.paysNo] at h
  · rintro (_ | _) <;> rfl

theorem freeCall_iff (c : Call) : Runtime.paysNo c.view = true ↔ ∃ c', c = .leaf c' ∧ Free c' := by
  cases c with
  | leaf c => simp [Call.view, free_iff]
  | _ => simp [Call.view, Runtime.paysNo]

theorem barred_iff (mainnet : Bool) (c : Chain.Call) :
    Runtime.contains mainnet (view c) = false ↔ mainnet = true ∧ Barred c := by
  constructor
  · intro h
    cases c with
    | msa c => cases c <;> simp [view, Runtime.contains] at h <;> exact ⟨h, by constructor⟩
    | schemas c => cases c <;> simp [view, Runtime.contains] at h <;> exact ⟨h, by constructor⟩
    | messages c => cases c <;> simp [view, Runtime.contains] at h
    | handles c => cases c <;> simp [view, Runtime.contains] at h
    | storage c => cases c <;> simp [view, Runtime.contains] at h
    | capacity c => cases c <;> simp [view, Runtime.contains] at h
  · rintro ⟨rfl, h⟩
    cases h <;> rfl

theorem allowed_leaf (c : Chain.Call) : Runtime.isBatchCallAllowed (view c) = true ↔ ¬ Free c ∧ ¬ Barred c := by
  constructor
  · intro h
    refine ⟨fun hf => ?_, fun hb => ?_⟩
    · cases hf <;> simp [view, Runtime.isBatchCallAllowed, Runtime.paysNo] at h
    · cases hb <;> simp [view, Runtime.isBatchCallAllowed] at h
  · rintro ⟨hf, hb⟩
    cases c with
    | msa c => cases c <;> first
      | rfl
      | exact absurd (by constructor) hf
      | exact absurd (by constructor) hb
    | schemas c => cases c <;> first
      | rfl
      | exact absurd (by constructor) hb
    | messages c => cases c <;> rfl
    | handles c => cases c <;> first
      | rfl
      | exact absurd (by constructor) hf
    | storage c => cases c <;> rfl
    | capacity c => cases c <;> rfl

theorem batchable_iff (c : Call) : Runtime.isBatchCallAllowed c.view = true ↔ Batchable c := by
  cases c with
  | leaf c =>
    simp only [Call.view, allowed_leaf]
    exact ⟨fun h => .leaf c h.1 h.2, fun h => by cases h; constructor <;> assumption⟩
  | _ =>
    simp only [Call.view]
    constructor
    · intro h; simp [Runtime.isBatchCallAllowed] at h
    · intro h; cases h

theorem anyBatchable (cs : List Call) : Runtime.isUtilityCallAllowed (viewL cs) = true ↔ ∃ c ∈ cs, Batchable c := by
  simp [Runtime.isUtilityCallAllowed, viewL_map, batchable_iff]

/-- The filter of an origin inside of a `batch_all` or not. -/
def flt (mainnet inAll : Bool) : Runtime.Filter :=
  fun c => Runtime.contains mainnet c && (!inAll || Runtime.noBatchAll c)

theorem flt_outer (mainnet : Bool) : flt mainnet false = Runtime.contains mainnet := by
  funext c; simp [flt]

theorem flt_filter (mainnet inAll : Bool) (k : Runtime.BatchKind) :
    k.filter (flt mainnet inAll) = flt mainnet (inAll || k == .batchAll) := by
  unfold Runtime.BatchKind.filter
  split
  · rename_i h
    subst h
    funext c
    simp only [flt]
    cases inAll <;> simp
  · rename_i h
    have : (k == Runtime.BatchKind.batchAll) = false := by simpa using h
    rw [this, Bool.or_false]

theorem noBatchAll_leaf (c : Chain.Call) : Runtime.noBatchAll (view c) = true := by
  cases c with
  | msa c => rfl
  | schemas c => cases c <;> rfl
  | messages c => cases c <;> rfl
  | handles c => cases c <;> rfl
  | storage c => cases c <;> rfl
  | capacity c => cases c <;> rfl

theorem flt_leaf (mainnet inAll : Bool) (c : Chain.Call) : flt mainnet inAll (view c) = Runtime.contains mainnet (view c) := by
  simp [flt, noBatchAll_leaf]

theorem flt_batch (mainnet inAll : Bool) (k : Runtime.BatchKind) (cs : List Call) :
    flt mainnet inAll (.batch k (viewL cs)) = true ↔ (∃ c ∈ cs, Batchable c) ∧ (k = .batchAll → inAll = false) := by
  simp only [flt, Runtime.contains, Bool.and_eq_true, anyBatchable]
  refine and_congr_right (fun _ => ?_)
  cases k <;> cases inAll <;> simp [Runtime.noBatchAll]

mutual
theorem outcome_exec (cfg : Chain.Config) (bal : AccountId → Balance) (mainnet inAll : Bool) (who : AccountId) (c : Call)
    (s : Chain.State) : Outcome cfg bal mainnet who inAll c s (exec cfg bal (flt mainnet inAll) who c s) := by
  match c with
  | .leaf c =>
    rw [exec.eq_def]
    simp only [Call.view, flt_leaf]
    split
    · rename_i h
      exact .call (fun hb => by rw [(barred_iff mainnet c).2 hb] at h; cases h)
    · rename_i h
      obtain ⟨h1, h2⟩ := (barred_iff mainnet c).1 (by simpa using h)
      exact .barred h1 h2
  | .batch k cs =>
    rw [exec.eq_def]
    dsimp only
    split
    · rename_i h
      rw [Call.view, flt_batch] at h
      refine .batch h.1 h.2 ?_
      rw [flt_filter]
      exact outcomes_exec cfg bal mainnet _ who k cs s
    · rename_i h
      rw [Call.view, flt_batch, not_and] at h
      by_cases h1 : ∃ c ∈ cs, Batchable c
      · have := h h1
        cases k <;> cases inAll <;> simp at this
        exact .nested
      · exact .noBatch (fun c hc hb => h1 ⟨c, hc, hb⟩)
  | .payWithCapacity c =>
    rw [exec.eq_def]
    dsimp only
    rw [if_pos (by simp [Call.view, flt, Runtime.contains, Runtime.noBatchAll])]
    exact .capacity (outcome_exec cfg bal mainnet inAll who c s)
  | .payWithCapacityBatchAll cs =>
    rw [exec.eq_def]
    dsimp only
    rw [if_pos (by simp [Call.view, flt, Runtime.contains, Runtime.noBatchAll])]
    split
    · rename_i h
      refine .capacityBatch h ?_
      rw [flt_filter]
      have : (inAll || Runtime.BatchKind.batchAll == Runtime.BatchKind.batchAll) = true := by simp
      rw [this]
      exact outcomes_exec cfg bal mainnet true who .batchAll cs s
    · rename_i h
      exact .tooMany (by simpa [Runtime.maxCapacityBatch] using h)
theorem outcomes_exec (cfg : Chain.Config) (bal : AccountId → Balance) (mainnet inAll : Bool) (who : AccountId)
    (k : Runtime.BatchKind) (cs : List Call) (s : Chain.State) :
    Outcomes cfg bal mainnet who inAll k cs s (execL cfg bal k (flt mainnet inAll) who cs s) := by
  match cs with
  | [] => rw [execL.eq_def]; exact .done
  | c :: cs =>
    have h := outcome_exec cfg bal mainnet inAll who c s
    rw [execL.eq_def]
    simp only
    cases he : exec cfg bal (flt mainnet inAll) who c s with
    | some s' =>
      rw [he] at h
      exact .next h (outcomes_exec cfg bal mainnet inAll who k cs s')
    | none =>
      rw [he] at h
      cases k with
      | batch => exact .stop h
      | batchAll => exact .undo h
      | forceBatch => exact .skip h (outcomes_exec cfg bal mainnet inAll who _ cs s)
end

mutual
theorem outcome_unique {cfg : Chain.Config} {bal : AccountId → Balance} {mainnet : Bool} {who : AccountId} {inAll : Bool}
    {c : Call} {s : Chain.State} {r r' : Option Chain.State} (h : Outcome cfg bal mainnet who inAll c s r)
    (h' : Outcome cfg bal mainnet who inAll c s r') : r = r' := by
  match h with
  | .call hb => cases h' with
    | call _ => rfl
    | barred h1 h2 => exact absurd ⟨h1, h2⟩ hb
  | .barred h1 h2 => cases h' with
    | call hb => exact absurd ⟨h1, h2⟩ hb
    | barred _ _ => rfl
  | .batch hb hn ho => cases h' with
    | batch _ _ ho' => exact outcomes_unique ho ho'
    | noBatch hx => obtain ⟨c, hc, hb⟩ := hb; exact absurd hb (hx c hc)
    | nested => cases hn rfl
  | .noBatch hx => cases h' with
    | batch hb _ _ => obtain ⟨c, hc, hb⟩ := hb; exact absurd hb (hx c hc)
    | noBatch _ => rfl
    | nested => rfl
  | .nested => cases h' with
    | batch _ hn _ => cases hn rfl
    | noBatch _ => rfl
    | nested => rfl
  | .capacity ho => cases h' with
    | capacity ho' => exact outcome_unique ho ho'
  | .capacityBatch hl ho => cases h' with
    | capacityBatch _ ho' => exact outcomes_unique ho ho'
    | tooMany hl' => omega
  | .tooMany hl => cases h' with
    | capacityBatch hl' _ => omega
    | tooMany _ => rfl
theorem outcomes_unique {cfg : Chain.Config} {bal : AccountId → Balance} {mainnet : Bool} {who : AccountId} {inAll : Bool}
    {k : Runtime.BatchKind} {cs : List Call} {s : Chain.State} {r r' : Option Chain.State}
    (h : Outcomes cfg bal mainnet who inAll k cs s r) (h' : Outcomes cfg bal mainnet who inAll k cs s r') : r = r' := by
  match h with
  | .done => cases h'; rfl
  | .next ho hs => cases h' with
    | next ho' hs' =>
      cases outcome_unique ho ho'
      exact outcomes_unique hs hs'
    | stop ho' => cases outcome_unique ho ho'
    | undo ho' => cases outcome_unique ho ho'
    | skip ho' _ => cases outcome_unique ho ho'
  | .stop ho => cases h' with
    | next ho' _ => cases outcome_unique ho ho'
    | stop _ => rfl
  | .undo ho => cases h' with
    | next ho' _ => cases outcome_unique ho ho'
    | undo _ => rfl
  | .skip ho hs => cases h' with
    | next ho' _ => cases outcome_unique ho ho'
    | skip _ hs' => exact outcomes_unique hs hs'
end

theorem counted_spec (s : State) (t : Signed) : Counted s t (counted s t) := by
  unfold Counted counted
  dsimp only
  have h := freeCall_iff t.call
  by_cases hf : ∃ c, t.call = .leaf c ∧ Free c
  · rw [h.2 hf]
    cases he : (Nonce.getAccount s.accounts t.who).existing <;> simp [hf]
  · have : Runtime.paysNo t.call.view = false := by
      cases hp : Runtime.paysNo t.call.view with
      | false => rfl
      | true => exact absurd (h.1 hp) hf
    rw [this]
    simp [hf]

/-! ## Theorems -/

/-- C125, rules: a call dispatched by its signer does what the rules say and nothing else, whatever calls it carries. -/
theorem C125_outcome (cfg : Config) (t : Signed) (s : Chain.State) (r : Option Chain.State) :
    exec cfg.chain t.bal (Runtime.contains cfg.mainnet) t.who t.call s = r ↔
      Outcome cfg.chain t.bal cfg.mainnet t.who false t.call s r := by
  have h := outcome_exec cfg.chain t.bal cfg.mainnet false t.who t.call s
  rw [flt_outer] at h
  exact ⟨fun e => e ▸ h, fun h' => outcome_unique h h'⟩

/-- C125, effect by the rules: an included transaction that is not paid with capacity uses up its number, unless the
call is a free one of an account with nothing on the chain, and leaves what the rules say, or nothing if it fails. -/
theorem C125_token_outcome (cfg : Config) (s : State) (t : Signed) (hw : t.call.withCapacity = false)
    (h : (takeIn cfg s t).isSome = true) (r : Option Chain.State)
    (hr : Outcome cfg.chain t.bal cfg.mainnet t.who false t.call s.chain r) :
    (submit cfg s t).chain = r.getD s.chain ∧ Counted s t (submit cfg s t).accounts := by
  rw [C125_token_effect cfg s t hw h, (C125_outcome ..).2 hr]
  exact ⟨rfl, counted_spec s t⟩

/-- C125, `batch`: of calls that fit into a batch, those before the first one that fails take effect. -/
theorem C125_batch (cfg : Config) (s : State) (t : Signed) (cs : List Chain.Call) (hc : t.call = .batch .batch (cs.map .leaf))
    (h : (takeIn cfg s t).isSome = true) (hb : ∃ c ∈ cs, ¬ Free c ∧ ¬ Barred c) :
    ∃ pre post, cs = pre ++ post ∧ (∀ c ∈ pre, ¬ (cfg.mainnet = true ∧ Barred c)) ∧
      dispatchAll cfg.chain t.bal t.who s.chain pre = some (submit cfg s t).chain ∧
      ∀ c l, post = c :: l → (cfg.mainnet = true ∧ Barred c) ∨
        Chain.dispatch cfg.chain t.bal (submit cfg s t).chain (.signed t.who) c = none := by
  have key : ∀ (cs : List Chain.Call) (s0 : Chain.State), ∃ pre post s', cs = pre ++ post ∧
      (∀ c ∈ pre, ¬ (cfg.mainnet = true ∧ Barred c)) ∧ dispatchAll cfg.chain t.bal t.who s0 pre = some s' ∧
      (∀ c l, post = c :: l → (cfg.mainnet = true ∧ Barred c) ∨
        Chain.dispatch cfg.chain t.bal s' (.signed t.who) c = none) ∧
      Outcomes cfg.chain t.bal cfg.mainnet t.who false .batch (cs.map .leaf) s0 (some s') := by
    intro cs
    induction cs with
    | nil => exact fun s0 => ⟨[], [], s0, rfl, by simp, rfl, by simp, .done⟩
    | cons c cs ih =>
      intro s0
      by_cases hb : cfg.mainnet = true ∧ Barred c
      · exact ⟨[], c :: cs, s0, rfl, by simp, rfl, fun c' l e => by cases e; exact .inl hb, .stop (.barred hb.1 hb.2)⟩
      · cases hd : Chain.dispatch cfg.chain t.bal s0 (.signed t.who) c with
        | none => exact ⟨[], c :: cs, s0, rfl, by simp, rfl, fun c' l e => by cases e; exact .inr hd, .stop (hd ▸ .call hb)⟩
        | some s1 =>
          obtain ⟨pre, post, s', e1, e2, e3, e4, e5⟩ := ih s1
          refine ⟨c :: pre, post, s', by rw [e1]; rfl, ?_, by simp only [dispatchAll, hd]; exact e3, e4, .next (hd ▸ .call hb) e5⟩
          intro c' hc'
          rcases List.mem_cons.1 hc' with rfl | hc'
          · exact hb
          · exact e2 c' hc'
  obtain ⟨pre, post, s', e1, e2, e3, e4, e5⟩ := key cs s.chain
  obtain ⟨c, hm, hf, hb⟩ := hb
  have := (C125_token_outcome cfg s t (by rw [hc]; rfl) h (some s') (by
    rw [hc]; exact .batch ⟨.leaf c, by simpa using hm, .leaf c hf hb⟩ (by simp) e5)).1
  simp only [Option.getD_some] at this
  rw [this]
  exact ⟨pre, post, e1, e2, e3, e4⟩

/-- C125, `force_batch`: every call that fails is left out, and the others take effect. -/
theorem C125_force_batch (cfg : Config) (s : State) (t : Signed) (cs : List Chain.Call)
    (hc : t.call = .batch .forceBatch (cs.map .leaf)) (h : (takeIn cfg s t).isSome = true)
    (hm : cfg.mainnet = false ∨ ∀ c ∈ cs, ¬ Barred c) (hb : ∃ c ∈ cs, ¬ Free c ∧ ¬ Barred c) :
    (submit cfg s t).chain = cs.foldl (fun s c => (Chain.dispatch cfg.chain t.bal s (.signed t.who) c).getD s) s.chain := by
  have hm' : ∀ c ∈ cs, ¬ (cfg.mainnet = true ∧ Barred c) := by
    rintro c hc ⟨h1, h2⟩
    rcases hm with hm | hm
    · rw [hm] at h1; cases h1
    · exact hm c hc h2
  have key : ∀ (cs : List Chain.Call) (s0 : Chain.State), (∀ c ∈ cs, ¬ (cfg.mainnet = true ∧ Barred c)) →
      Outcomes cfg.chain t.bal cfg.mainnet t.who false .forceBatch (cs.map .leaf) s0
        (some (cs.foldl (fun s c => (Chain.dispatch cfg.chain t.bal s (.signed t.who) c).getD s) s0)) := by
    intro cs
    induction cs with
    | nil => exact fun s0 _ => .done
    | cons c cs ih =>
      intro s0 hx
      have hb := hx c (by simp)
      have ih := fun s1 => ih s1 (fun c hc => hx c (by simp [hc]))
      cases hd : Chain.dispatch cfg.chain t.bal s0 (.signed t.who) c with
      | none =>
        simp only [List.map_cons, List.foldl_cons, hd, Option.getD_none]
        exact .skip (hd ▸ .call hb) (ih s0)
      | some s1 =>
        simp only [List.map_cons, List.foldl_cons, hd, Option.getD_some]
        exact .next (hd ▸ .call hb) (ih s1)
  obtain ⟨c, hcm, hf, hb⟩ := hb
  exact (C125_token_outcome cfg s t (by rw [hc]; rfl) h _ (by
    rw [hc]; exact .batch ⟨.leaf c, by simpa using hcm, .leaf c hf hb⟩ (by simp) (key cs s.chain hm'))).1

/-- C125, `batch_all`: all calls take effect, or none if one of them fails or is barred or nothing in it may be batched. -/
theorem C125_batch_all (cfg : Config) (s : State) (t : Signed) (cs : List Chain.Call)
    (hc : t.call = .batch .batchAll (cs.map .leaf)) (h : (takeIn cfg s t).isSome = true) :
    ((∃ c ∈ cs, ¬ Free c ∧ ¬ Barred c) → (cfg.mainnet = false ∨ ∀ c ∈ cs, ¬ Barred c) →
      (submit cfg s t).chain = (dispatchAll cfg.chain t.bal t.who s.chain cs).getD s.chain) ∧
    ((∀ c ∈ cs, Free c ∨ Barred c) ∨ (cfg.mainnet = true ∧ ∃ c ∈ cs, Barred c) → (submit cfg s t).chain = s.chain) := by
  have key : ∀ (cs : List Chain.Call) (s0 : Chain.State), (∀ c ∈ cs, ¬ (cfg.mainnet = true ∧ Barred c)) →
      Outcomes cfg.chain t.bal cfg.mainnet t.who true .batchAll (cs.map .leaf) s0
        (dispatchAll cfg.chain t.bal t.who s0 cs) := by
    intro cs
    induction cs with
    | nil => exact fun s0 _ => .done
    | cons c cs ih =>
      intro s0 hx
      have hb := hx c (by simp)
      cases hd : Chain.dispatch cfg.chain t.bal s0 (.signed t.who) c with
      | none =>
        simp only [dispatchAll, hd]
        exact .undo (hd ▸ .call hb)
      | some s1 =>
        simp only [dispatchAll, hd]
        exact .next (hd ▸ .call hb) (ih s1 (fun c hc => hx c (by simp [hc])))
  have key2 : ∀ (cs : List Chain.Call) (s0 : Chain.State), (cfg.mainnet = true ∧ ∃ c ∈ cs, Barred c) →
      Outcomes cfg.chain t.bal cfg.mainnet t.who true .batchAll (cs.map .leaf) s0 none := by
    intro cs
    induction cs with
    | nil => rintro s0 ⟨_, c, hc, _⟩; cases hc
    | cons c cs ih =>
      rintro s0 ⟨hm, x, hx, hb⟩
      by_cases hbc : Barred c
      · exact .undo (.barred hm hbc)
      · rcases List.mem_cons.1 hx with rfl | hx
        · exact absurd hb hbc
        · cases hd : Chain.dispatch cfg.chain t.bal s0 (.signed t.who) c with
          | none => exact .undo (hd ▸ .call (fun h => hbc h.2))
          | some s1 => exact .next (hd ▸ .call (fun h => hbc h.2)) (ih s1 ⟨hm, x, hx, hb⟩)
  have hw : t.call.withCapacity = false := by rw [hc]; rfl
  refine ⟨?_, ?_⟩
  · rintro ⟨c, hcm, hf, hb⟩ hm
    refine (C125_token_outcome cfg s t hw h _ ?_).1
    rw [hc]
    refine .batch ⟨.leaf c, by simpa using hcm, .leaf c hf hb⟩ (by simp) (key cs s.chain ?_)
    rintro c hc ⟨h1, h2⟩
    rcases hm with hm | hm
    · rw [hm] at h1; cases h1
    · exact hm c hc h2
  · intro hx
    refine (C125_token_outcome cfg s t hw h none ?_).1
    rw [hc]
    by_cases hb : ∃ c ∈ cs.map Call.leaf, Batchable c
    · rcases hx with hx | hx
      · exfalso
        obtain ⟨c', hc', hb⟩ := hb
        obtain ⟨c, hc, rfl⟩ := List.mem_map.1 hc'
        cases hb with
        | leaf _ h1 h2 => rcases hx c hc with h | h <;> contradiction
      · exact .batch hb (by simp) (key2 cs s.chain hx)
    · exact .noBatch (fun c hc hx => hb ⟨c, hc, hx⟩)

/-! ## Examples -/

/-- Transactions of an account without an identity: it makes one, tries to make another one, and stakes. -/
def exBatch (k : Runtime.BatchKind) : Signed :=
  ⟨40, 0, .batch k ([.msa .create, .msa .create, .capacity (.stake 1 500)].map .leaf), 200, fun _ => 10000, true⟩

/-- All three are included. The first keeps the new identity and stops, the second goes on to stake, the third does
nothing; all three use up the number. -/
example :
    (∀ k, (takeIn exCfg exState (exBatch k)).isSome = true) ∧ exState.chain.msa.maxMsaId = 1 ∧
    (submit exCfg exState (exBatch .batch)).chain.msa.maxMsaId = 2 ∧
    (submit exCfg exState (exBatch .batch)).chain.capacity.active.get 40 = none ∧
    (submit exCfg exState (exBatch .forceBatch)).chain.msa.maxMsaId = 2 ∧
    ((submit exCfg exState (exBatch .forceBatch)).chain.capacity.active.get 40).isSome = true ∧
    (submit exCfg exState (exBatch .batchAll)).chain.msa.maxMsaId = 1 ∧
    (∀ k, (Nonce.getAccount (submit exCfg exState (exBatch k)).accounts 40).nonce = 1) ∧
    ∃ c ∈ [Chain.Call.msa .create, .msa .create, .capacity (.stake 1 500)], ¬ Free c ∧ ¬ Barred c := by
  refine ⟨by intro k; cases k <;> decide +kernel, by decide +kernel, by decide +kernel, by decide +kernel, by decide +kernel,
    by decide +kernel, by decide +kernel, by intro k; cases k <;> decide +kernel, .msa .create, by simp, ?_, ?_⟩ <;>
    (intro h; cases h)

end Verif.Tx
