import Verif.Stateful.Props
/-!
# C83: storage calls do exactly what is asked
-/

namespace Verif.Stateful

/-! ## Specification -/

/-- Account that a signed payload names, if any. -/
def Call.named : Call → Option MsaId
  | .applyItemActionsWithSignature _ _ p => p.msaId
  | .upsertPageWithSignature _ _ p => p.msaId
  | .deletePageWithSignature _ _ p => p.msaId
  | _ => none

/-- The step may write to the storage of account `m` of this kind. Without signature in the call: submitted by a key
of `m`, or of a provider with a current grant if the schema does not require signatures. With a signature: it is a
valid unexpired one by a key of `m`, and the payload names `m` or nobody. The schema exists, is of the right kind, and
nothing is deleted if it is append-only. -/
def MayWrite (cfg : Config) (x : Step) (m : MsaId) (kind : Location) (deleting : Bool) : Prop :=
  ∃ info, x.env.schema x.call.schema = some info ∧ info.location = kind ∧
    ¬ (Setting.appendOnly ∈ info.settings ∧ deleting = true) ∧
    match x.call.signature with
    | none => SubmittedBy x m ∨
        (SubmittedByProvider x m x.call.schema ∧ Setting.signatureRequired ∉ info.settings)
    | some _ => (∃ key, x.who = some key) ∧ SignedFor cfg x m ∧ (x.call.named = none ∨ x.call.named = some m)

/-- The actions can be applied to these items: each fits its limits, the positions deleted exist and are deleted
once, and the result fits on a page (2 bytes per item for its length). -/
def Applicable (cfg : Config) (items : List Bytes) (actions : List ItemAction) : Prop :=
  actions.length ≤ cfg.maxActions ∧ (∀ d ∈ addedItems actions, d.length ≤ cfg.maxBlob ∧ d.length < 65536) ∧
  (deletedPos actions).Nodup ∧ (∀ i ∈ deletedPos actions, i < items.length) ∧
  ((survivors (deletedPos actions) 0 items ++ addedItems actions).map fun d => 2 + d.length).sum ≤
    cfg.maxItemizedPage

/-! ## Lemmas -/

theorem encodeItems_length_eq (items : List Bytes) :
    (encodeItems items).length = (items.map fun d => 2 + d.length).sum := by
  induction items with
  | nil => rfl
  | cons d items ih => rw [encodeItems_cons, List.length_append, length_encodeItem, ih]; simp

theorem okUnit {α ε : Type} (p : Prop) [Decidable p] (e : ε) (f : Unit → Except ε α) (r : α) :
    (ensure p e >>= f) = .ok r ↔ p ∧ f () = .ok r := by
  simp only [bind_eq_ok_iff, ensure_eq_ok_iff]
  constructor
  · rintro ⟨_, h1, h2⟩; exact ⟨h1, h2⟩
  · rintro ⟨h1, h2⟩; exact ⟨(), h1, h2⟩

theorem checkSchemaForWrite_iff {env s l a b} :
    checkSchemaForWrite env s l a b = .ok () ↔ ∃ info, env.schema s = some info ∧ info.location = l ∧
      (.signatureRequired ∈ info.settings → a = true) ∧ (.appendOnly ∈ info.settings → b = false) := by
  constructor
  · exact checkSchemaForWrite_ok
  · rintro ⟨info, h1, h2, h3, h4⟩
    simp only [checkSchemaForWrite, checkSchemaForRead, bind_eq_ok_iff, okOr_eq_ok_iff, ensure_eq_ok_iff,
      pure_eq_ok_iff]
    exact ⟨info, ⟨info, h1, (), h2, rfl⟩, (), h3, h4⟩

theorem checkMsaAndGrants_iff {env key owner s caller} : checkMsaAndGrants env key owner s = .ok caller ↔
    env.msaOf key = some caller ∧ (caller ≠ owner → env.granted caller owner s = true) := by
  constructor
  · exact checkMsaAndGrants_ok
  · rintro ⟨h1, h2⟩
    simp only [checkMsaAndGrants, bind_eq_ok_iff, okOr_eq_ok_iff, ensure_eq_ok_iff, pure_eq_ok_iff]
    exact ⟨caller, h1, (), h2, rfl⟩

theorem ownerOf_iff {env key e owner} : ownerOf env key e = .ok owner ↔
    env.msaOf key = some owner ∧ (e = none ∨ e = some owner) := by
  simp only [ownerOf, bind_eq_ok_iff, okOr_eq_ok_iff, ensure_eq_ok_iff, pure_eq_ok_iff]
  constructor
  · rintro ⟨c, h1, _, h2, rfl⟩
    refine ⟨h1, ?_⟩
    cases e with
    | none => exact .inl rfl
    | some y => exact .inr (by rw [h2 y rfl])
  · rintro ⟨h1, h2⟩
    refine ⟨owner, h1, (), ?_, rfl⟩
    rintro y hy
    rcases h2 with h2 | h2 <;> rw [h2] at hy <;> simp_all

/-- The checks of a call without signature. -/
theorem direct_iff {env : Env} {who : Option AccountId} {m : MsaId} {s : SchemaId} {l : Location} {b : Bool} :
    (∃ key, who = some key ∧ ∃ caller, checkMsaAndGrants env key m s = .ok caller ∧
      checkSchemaForWrite env s l (decide (caller = m)) b = .ok ()) ↔
    ∃ info, env.schema s = some info ∧ info.location = l ∧ ¬ (Setting.appendOnly ∈ info.settings ∧ b = true) ∧
      ((∃ key, who = some key ∧ env.msaOf key = some m) ∨
        ((∃ key p, who = some key ∧ env.msaOf key = some p ∧ env.granted p m s = true) ∧
          Setting.signatureRequired ∉ info.settings)) := by
  simp only [checkMsaAndGrants_iff, checkSchemaForWrite_iff]
  constructor
  · rintro ⟨key, hw, caller, ⟨g1, g2⟩, info, i1, i2, i3, i4⟩
    refine ⟨info, i1, i2, fun h => by have := i4 h.1; rw [this] at h; simp at h, ?_⟩
    by_cases e : caller = m
    · subst e; exact .inl ⟨key, hw, g1⟩
    · refine .inr ⟨⟨key, caller, hw, g1, g2 e⟩, fun h => e ?_⟩
      simpa using i3 h
  · rintro ⟨info, i1, i2, i4, h | ⟨⟨key, p, hw, g1, g2⟩, i3⟩⟩
    · obtain ⟨key, hw, g1⟩ := h
      exact ⟨key, hw, m, ⟨g1, fun h => absurd rfl h⟩, info, i1, i2, by simp,
        fun h => by cases b <;> simp_all⟩
    · exact ⟨key, hw, p, ⟨g1, fun _ => g2⟩, info, i1, i2, fun h => absurd h i3,
        fun h => by cases b <;> simp_all⟩

theorem signed_iff {cfg : Config} {env : Env} {who : Option AccountId} {key : AccountId} {sig : Signature}
    {bytes : Bytes} {e : BlockNumber} {nm : Option MsaId} {s : SchemaId} {l : Location} {b : Bool} {m : MsaId} :
    ((∃ k, who = some k) ∧ checkPayloadExpiration cfg env.block e = .ok () ∧ checkSignature cfg sig key bytes = .ok () ∧
      ownerOf env key nm = .ok m ∧ checkSchemaForWrite env s l true b = .ok ()) ↔
    ∃ info, env.schema s = some info ∧ info.location = l ∧ ¬ (Setting.appendOnly ∈ info.settings ∧ b = true) ∧
      (∃ k, who = some k) ∧ (env.msaOf key = some m ∧ env.block < e ∧ e < env.block + cfg.window ∧
        cfg.verify sig key (wrap bytes) = true) ∧ (nm = none ∨ nm = some m) := by
  simp only [checkSchemaForWrite_iff, ownerOf_iff, checkSignature, ensure_eq_ok_iff, checkPayloadExpiration,
    okUnit]
  constructor
  · rintro ⟨hw, ⟨e1, e2⟩, hv, ⟨o1, o2⟩, info, i1, i2, _, i4⟩
    exact ⟨info, i1, i2, fun h => by have := i4 h.1; rw [this] at h; simp at h, hw, ⟨o1, e1, e2, hv⟩, o2⟩
  · rintro ⟨info, i1, i2, i4, hw, ⟨o1, e1, e2, hv⟩, o2⟩
    exact ⟨hw, ⟨e1, e2⟩, hv, ⟨o1, o2⟩, info, i1, i2, by simp, fun h => by cases b <;> simp_all⟩

theorem signedFor_items {cfg : Config} {env : Env} {who key sig p m} :
    SignedFor cfg ⟨env, who, .applyItemActionsWithSignature key sig p⟩ m ↔
    (env.msaOf key = some m ∧ env.block < p.expiration ∧ p.expiration < env.block + cfg.window ∧
        cfg.verify sig key (wrap p.encode) = true) := by
  constructor
  · rintro ⟨k, s, e, h1, h2, h3, ⟨q, hq, rfl, h4⟩ | ⟨q, hq, rfl, h4⟩ | ⟨q, hq, rfl, h4⟩⟩
    · cases hq; exact ⟨h1, h2, h3, h4⟩
    · cases hq
    · cases hq
  · rintro ⟨h1, h2, h3, h4⟩
    exact ⟨_, _, _, h1, h2, h3, .inl ⟨_, rfl, rfl, h4⟩⟩

theorem signedFor_upsert {cfg : Config} {env : Env} {who key sig p m} :
    SignedFor cfg ⟨env, who, .upsertPageWithSignature key sig p⟩ m ↔
    (env.msaOf key = some m ∧ env.block < p.expiration ∧ p.expiration < env.block + cfg.window ∧
        cfg.verify sig key (wrap p.encode) = true) := by
  constructor
  · rintro ⟨k, s, e, h1, h2, h3, ⟨q, hq, rfl, h4⟩ | ⟨q, hq, rfl, h4⟩ | ⟨q, hq, rfl, h4⟩⟩
    · cases hq
    · cases hq; exact ⟨h1, h2, h3, h4⟩
    · cases hq
  · rintro ⟨h1, h2, h3, h4⟩
    exact ⟨_, _, _, h1, h2, h3, .inr (.inl ⟨_, rfl, rfl, h4⟩)⟩

theorem signedFor_delete {cfg : Config} {env : Env} {who key sig p m} :
    SignedFor cfg ⟨env, who, .deletePageWithSignature key sig p⟩ m ↔
    (env.msaOf key = some m ∧ env.block < p.expiration ∧ p.expiration < env.block + cfg.window ∧
        cfg.verify sig key (wrap p.encode) = true) := by
  constructor
  · rintro ⟨k, s, e, h1, h2, h3, ⟨q, hq, rfl, h4⟩ | ⟨q, hq, rfl, h4⟩ | ⟨q, hq, rfl, h4⟩⟩
    · cases hq
    · cases hq
    · cases hq; exact ⟨h1, h2, h3, h4⟩
  · rintro ⟨h1, h2, h3, h4⟩
    exact ⟨_, _, _, h1, h2, h3, .inr (.inr ⟨_, rfl, rfl, h4⟩)⟩

/-- A call succeeds exactly if it is within its bounds, may write, and its update succeeds. -/
theorem dispatch_ok_iff (cfg : Config) (x : Step) (st st' : Store) (m : MsaId)
    (hm : x.call.owner x.env = some m) :
    dispatch cfg x.env st x.who x.call = .ok st' ↔
      x.call.update.Bounded cfg ∧ MayWrite cfg x m x.call.update.location x.call.update.deleting ∧
      x.call.update.exec cfg st m x.call.schema = .ok st' := by
  obtain ⟨env, who, call⟩ := x
  cases call with
  | applyItemActions o s th a =>
    simp only [Call.owner, Option.some.injEq] at hm
    subst hm
    have hmw : MayWrite cfg ⟨env, who, .applyItemActions o s th a⟩ o .itemized (isPruning a) ↔ _ :=
      (@direct_iff env who o s .itemized (isPruning a)).symm
    simp only [Call.update, Update.location, Update.deleting, hmw]
    simp only [dispatch, bind_eq_ok_iff, okOr_eq_ok_iff, ensure_eq_ok_iff, Call.schema, Update.Bounded, Update.exec]
    constructor
    · rintro ⟨_, h1, key, h2, caller, h3, _, h4, h5⟩
      exact ⟨h1, ⟨key, h2, caller, h3, h4⟩, h5⟩
    · rintro ⟨h1, ⟨key, h2, caller, h3, h4⟩, h5⟩
      exact ⟨(), h1, key, h2, caller, h3, (), h4, h5⟩
  | upsertPage o s p th d =>
    simp only [Call.owner, Option.some.injEq] at hm
    subst hm
    have hmw : MayWrite cfg ⟨env, who, .upsertPage o s p th d⟩ o .paginated false ↔ _ :=
      (@direct_iff env who o s .paginated false).symm
    simp only [Call.update, Update.location, Update.deleting, hmw]
    simp only [dispatch, bind_eq_ok_iff, okOr_eq_ok_iff, ensure_eq_ok_iff, Call.schema, Update.Bounded, Update.exec]
    constructor
    · rintro ⟨_, h1, key, h2, _, hp, caller, h3, _, h4, h5⟩
      exact ⟨⟨h1, hp⟩, ⟨key, h2, caller, h3, h4⟩, h5⟩
    · rintro ⟨⟨h1, hp⟩, ⟨key, h2, caller, h3, h4⟩, h5⟩
      exact ⟨(), h1, key, h2, (), hp, caller, h3, (), h4, h5⟩
  | deletePage o s p th =>
    simp only [Call.owner, Option.some.injEq] at hm
    subst hm
    have hmw : MayWrite cfg ⟨env, who, .deletePage o s p th⟩ o .paginated true ↔ _ :=
      (@direct_iff env who o s .paginated true).symm
    simp only [Call.update, Update.location, Update.deleting, hmw]
    simp only [dispatch, bind_eq_ok_iff, okOr_eq_ok_iff, ensure_eq_ok_iff, Call.schema, Update.Bounded, Update.exec]
    constructor
    · rintro ⟨key, h2, _, hp, caller, h3, _, h4, h5⟩
      exact ⟨hp, ⟨key, h2, caller, h3, h4⟩, h5⟩
    · rintro ⟨hp, ⟨key, h2, caller, h3, h4⟩, h5⟩
      exact ⟨key, h2, (), hp, caller, h3, (), h4, h5⟩
  | applyItemActionsWithSignature key sig p =>
    have hmw : MayWrite cfg ⟨env, who, .applyItemActionsWithSignature key sig p⟩ m .itemized (isPruning p.actions) ↔ _ :=
      Iff.trans (exists_congr fun info => and_congr Iff.rfl (and_congr Iff.rfl (and_congr Iff.rfl
        (and_congr Iff.rfl (and_congr signedFor_items Iff.rfl)))))
      (@signed_iff cfg env who key sig p.encode p.expiration p.msaId p.schemaId .itemized (isPruning p.actions) m).symm
    simp only [Call.update, Update.location, Update.deleting, hmw]
    simp only [dispatch, bind_eq_ok_iff, okOr_eq_ok_iff, ensure_eq_ok_iff, Call.schema, Update.Bounded, Update.exec]
    simp only [Call.owner] at hm
    constructor
    · rintro ⟨_, h1, k, h2, _, h3, _, h4, o, h5, _, h6, h7⟩
      have : o = m := by have := (ownerOf_ok h5).1; rw [hm] at this; simpa using this.symm
      subst this
      exact ⟨h1, ⟨⟨k, h2⟩, h3, h4, h5, h6⟩, h7⟩
    · rintro ⟨h1, ⟨⟨k, h2⟩, h3, h4, h5, h6⟩, h7⟩
      exact ⟨(), h1, k, h2, (), h3, (), h4, m, h5, (), h6, h7⟩
  | upsertPageWithSignature key sig p =>
    have hmw : MayWrite cfg ⟨env, who, .upsertPageWithSignature key sig p⟩ m .paginated false ↔ _ :=
      Iff.trans (exists_congr fun info => and_congr Iff.rfl (and_congr Iff.rfl (and_congr Iff.rfl
        (and_congr Iff.rfl (and_congr signedFor_upsert Iff.rfl)))))
      (@signed_iff cfg env who key sig p.encode p.expiration p.msaId p.schemaId .paginated false m).symm
    simp only [Call.update, Update.location, Update.deleting, hmw]
    simp only [dispatch, bind_eq_ok_iff, okOr_eq_ok_iff, ensure_eq_ok_iff, Call.schema, Update.Bounded, Update.exec]
    simp only [Call.owner] at hm
    constructor
    · rintro ⟨_, h1, k, h2, _, hp, _, h3, _, h4, o, h5, _, h6, h7⟩
      have : o = m := by have := (ownerOf_ok h5).1; rw [hm] at this; simpa using this.symm
      subst this
      exact ⟨⟨h1, hp⟩, ⟨⟨k, h2⟩, h3, h4, h5, h6⟩, h7⟩
    · rintro ⟨⟨h1, hp⟩, ⟨⟨k, h2⟩, h3, h4, h5, h6⟩, h7⟩
      exact ⟨(), h1, k, h2, (), hp, (), h3, (), h4, m, h5, (), h6, h7⟩
  | deletePageWithSignature key sig p =>
    have hmw : MayWrite cfg ⟨env, who, .deletePageWithSignature key sig p⟩ m .paginated true ↔ _ :=
      Iff.trans (exists_congr fun info => and_congr Iff.rfl (and_congr Iff.rfl (and_congr Iff.rfl
        (and_congr Iff.rfl (and_congr signedFor_delete Iff.rfl)))))
      (@signed_iff cfg env who key sig p.encode p.expiration p.msaId p.schemaId .paginated true m).symm
    simp only [Call.update, Update.location, Update.deleting, hmw]
    simp only [dispatch, bind_eq_ok_iff, okOr_eq_ok_iff, ensure_eq_ok_iff, Call.schema, Update.Bounded, Update.exec]
    simp only [Call.owner] at hm
    constructor
    · rintro ⟨k, h2, _, hp, _, h3, _, h4, o, h5, _, h6, h7⟩
      have : o = m := by have := (ownerOf_ok h5).1; rw [hm] at this; simpa using this.symm
      subst this
      exact ⟨hp, ⟨⟨k, h2⟩, h3, h4, h5, h6⟩, h7⟩
    · rintro ⟨hp, ⟨⟨k, h2⟩, h3, h4, h5, h6⟩, h7⟩
      exact ⟨k, h2, (), hp, (), h3, (), h4, m, h5, (), h6, h7⟩

/-- What is read after a successful call. -/
theorem read_after {cfg : Config} (hc : CfgOk cfg) {st st' : Store} (hst : Reachable cfg st) {x : Step}
    (hx : StepOk cfg x) {m : MsaId} (hm : x.call.owner x.env = some m)
    (h : dispatch cfg x.env st x.who x.call = .ok st') :
    ∃ old new, readAt cfg st (x.call.update.loc m x.call.schema) = .ok old ∧
      (∀ p ∈ old, PageOk cfg (x.call.update.loc m x.call.schema) p) ∧
      Change cfg old x.call.update new ∧ readAt cfg st' (x.call.update.loc m x.call.schema) = .ok new := by
  obtain ⟨o, old, new, h1, _, h2, h3, h4, h5, h6⟩ := dispatch_effect hc (hst.storeOk hc) hx h
  have : o = m := by have := h1.howner; rw [show x.call.owner x.env = some m from hm] at this; simpa using this.symm
  subst this
  refine ⟨old, new, h2, h3, h4, ?_⟩
  rw [h5]
  exact readAt_put_same _ _ _ (fun p hp => ⟨(h6 p hp).1, (h6 p hp).2.1⟩) (hc.maxSize _)

/-- Nonce of a place, zero if nothing is stored. -/
def nonceOf : Option Page → Nat
  | none => 0
  | some p => p.nonce

theorem nonceOf_getD (v : Option Page) : (v.getD .default).nonce = nonceOf v := by cases v <;> rfl

theorem itemsAt_of {cfg : Config} (hc : CfgOk cfg) {st : Store} {m s} {v : Option Page}
    (hr : readAt cfg st (.items m s) = .ok v) (hv : ∀ p ∈ v, PageOk cfg (.items m s) p) :
    Fit (itemsAt cfg st m s) ∧ (itemsAt cfg st m s).length ≤ 65535 ∧
      (v.getD .default) = ⟨nonceOf v, encodeItems (itemsAt cfg st m s)⟩ ∧
      (v = none ↔ itemsAt cfg st m s = []) := by
  obtain ⟨items, f1, f2, f3⟩ := items_of_ok hc hv
  have : itemsAt cfg st m s = items := by
    unfold itemsAt
    rw [hr]
    cases v with
    | none =>
      simp only
      exact (encodeItems_eq_nil.1 f3.symm).symm
    | some p =>
      obtain ⟨n, d⟩ := p
      simp only [Option.getD_some] at f3
      subst f3
      simp only
      rw [C19_parse_of_encoded _ _ f1 f2]
      simp only
      have : ∀ (k : Nat) (l : List Bytes), (number k l).map Prod.snd = l := by
        intro k l
        induction l generalizing k with
        | nil => rfl
        | cons a l ih => simp [number, ih]
      exact this _ _
  rw [this]
  refine ⟨f1, f2, by rw [← f3, ← nonceOf_getD], ?_⟩
  cases v with
  | none => exact ⟨fun _ => encodeItems_eq_nil.1 f3.symm, fun _ => rfl⟩
  | some p =>
    obtain ⟨_, _, i2, h3, _, h5⟩ := hv p rfl
    simp only [Option.getD_some] at f3
    refine ⟨by simp, fun e => ?_⟩
    subst e
    rw [f3] at h5
    exact absurd (encodeItems_eq_nil.1 h5.symm) h3

theorem mem_actionsFit {cfg : Config} {actions : List ItemAction} :
    actionsFit cfg actions = true ↔ actions.length ≤ cfg.maxActions ∧
      (∀ d ∈ addedItems actions, d.length ≤ cfg.maxBlob) ∧ ∀ i ∈ deletedPos actions, i < 65536 := by
  unfold actionsFit
  rw [Bool.and_eq_true, decide_eq_true_eq]
  refine and_congr Iff.rfl ?_
  induction actions with
  | nil => simp [addedItems, deletedPos]
  | cons a rest ih =>
    rw [List.all_cons, Bool.and_eq_true, ih]
    cases a with
    | add d => simp [addedItems, deletedPos, and_assoc]
    | delete i =>
      simp only [addedItems, deletedPos, decide_eq_true_eq, List.mem_cons, forall_eq_or_imp]
      constructor
      · rintro ⟨a, b, c⟩; exact ⟨b, a, c⟩
      · rintro ⟨b, a, c⟩; exact ⟨a, b, c⟩

theorem isPruning_eq (actions : List ItemAction) : isPruning actions = decide (deletedPos actions ≠ []) := by
  induction actions with
  | nil => rfl
  | cons a rest ih =>
    cases a with
    | add d => exact ih
    | delete i => simp [isPruning, deletedPos]

/-! ## C83 -/

/-- C83, writing a page: the call succeeds exactly if the data and the page number are within their limits, the call
may write, and its target hash is that of the page stored now. Then the page holds the data, and its nonce is one
higher. -/
theorem C83_upsert_exact (cfg : Config) (hc : CfgOk cfg) (st : Store) (hst : Reachable cfg st) (x : Step)
    (hx : StepOk cfg x) (m : MsaId) (hm : x.call.owner x.env = some m) (p h : Nat) (d : Bytes)
    (hu : x.call.update = .upsert p h d) (old : Option Page)
    (hr : readAt cfg st (.page m x.call.schema p) = .ok old) :
    ((∃ st', dispatch cfg x.env st x.who x.call = .ok st') ↔
      d.length ≤ cfg.maxPaginatedPage ∧ p ≤ cfg.maxPageId ∧ MayWrite cfg x m .paginated false ∧
        h = hashOf cfg old) ∧
    ∀ st', dispatch cfg x.env st x.who x.call = .ok st' →
      readAt cfg st' (.page m x.call.schema p) = .ok (some ⟨(nonceOf old + 1) % 65536, d⟩) := by
  refine ⟨?_, fun st' hd => ?_⟩
  · constructor
    · rintro ⟨st', hd⟩
      obtain ⟨h1, h2, h3⟩ := (dispatch_ok_iff cfg x st st' m hm).1 hd
      rw [hu] at h1 h2 h3
      obtain ⟨o, new, g1, g2, _⟩ := exec_ok h3
      have : o = old := by have := g1.symm.trans hr; simpa using this
      subst this
      cases g2 with
      | upsert e => exact ⟨h1.1, h1.2, h2, by rw [e, getHash_getD]⟩
    · rintro ⟨h1, h2, h3, h4⟩
      refine ⟨write cfg st m .paginated (pageKey cfg x.call.schema p) ⟨((old.getD .default).nonce + 1) % 65536, d⟩,
        (dispatch_ok_iff cfg x st _ m hm).2 ?_⟩
      rw [hu]
      refine ⟨⟨h1, h2⟩, h3, ?_⟩
      simp only [readAt] at hr
      rw [← getHash_getD] at h4
      simp only [Update.exec, updatePaginated, bind_eq_ok_iff, ensure_eq_ok_iff, pure_eq_ok_iff]
      exact ⟨old, hr, (), h4, rfl⟩
  · obtain ⟨o, new, g1, _, g2, g3⟩ := read_after hc hst hx hm hd
    rw [hu] at g1 g2 g3
    have : o = old := by have := g1.symm.trans hr; simpa using this
    subst this
    cases g2 with
    | upsert e => rw [← nonceOf_getD]; exact g3

/-- C83, deleting a page: the call succeeds exactly if the page number is within its limit, the call may delete, and
there is no page, or its hash is the target hash. Then there is no page. Missing: where there is no page, the target
hash is not compared. -/
theorem C83_delete_exact_partial (cfg : Config) (hc : CfgOk cfg) (st : Store) (hst : Reachable cfg st) (x : Step)
    (hx : StepOk cfg x) (m : MsaId) (hm : x.call.owner x.env = some m) (p h : Nat)
    (hu : x.call.update = .delete p h) (old : Option Page)
    (hr : readAt cfg st (.page m x.call.schema p) = .ok old) :
    ((∃ st', dispatch cfg x.env st x.who x.call = .ok st') ↔
      p ≤ cfg.maxPageId ∧ MayWrite cfg x m .paginated true ∧ (old = none ∨ h = hashOf cfg old)) ∧
    ∀ st', dispatch cfg x.env st x.who x.call = .ok st' →
      readAt cfg st' (.page m x.call.schema p) = .ok none := by
  refine ⟨?_, fun st' hd => ?_⟩
  · constructor
    · rintro ⟨st', hd⟩
      obtain ⟨h1, h2, h3⟩ := (dispatch_ok_iff cfg x st st' m hm).1 hd
      rw [hu] at h1 h2 h3
      obtain ⟨o, new, g1, g2, _⟩ := exec_ok h3
      have : o = old := by have := g1.symm.trans hr; simpa using this
      subst this
      cases g2 with
      | delete e1 e2 => subst e1; exact ⟨h1, h2, .inr (by rw [e2, ← getHash_getD]; rfl)⟩
      | absent e => exact ⟨h1, h2, .inl e⟩
    · rintro ⟨h1, h2, h3⟩
      simp only [readAt] at hr
      cases old with
      | none =>
        refine ⟨st, (dispatch_ok_iff cfg x st _ m hm).2 ?_⟩
        rw [hu]
        refine ⟨h1, h2, ?_⟩
        simp only [Update.exec, deletePaginated, bind_eq_ok_iff]
        exact ⟨none, hr, by rfl⟩
      | some q =>
        refine ⟨kill cfg st m .paginated (pageKey cfg x.call.schema p), (dispatch_ok_iff cfg x st _ m hm).2 ?_⟩
        rw [hu]
        refine ⟨h1, h2, ?_⟩
        simp only [Update.exec, deletePaginated, bind_eq_ok_iff]
        refine ⟨some q, hr, ?_⟩
        simp only [bind_eq_ok_iff, ensure_eq_ok_iff, pure_eq_ok_iff]
        refine ⟨(), ?_, trivial⟩
        rcases h3 with h3 | h3
        · simp at h3
        · rw [h3, ← getHash_getD]; rfl
  · obtain ⟨o, new, g1, _, g2, g3⟩ := read_after hc hst hx hm hd
    rw [hu] at g1 g2 g3
    cases g2 with
    | delete => exact g3
    | absent => exact g3

/-- C83, full statement for the target hash of a deletion. -/
def C83_full : Prop :=
  ∀ (cfg : Config) (st : Store) (x : Step) (m : MsaId) (p h : Nat) (old : Option Page), CfgOk cfg → Reachable cfg st →
    StepOk cfg x → x.call.owner x.env = some m → x.call.update = .delete p h →
    readAt cfg st (.page m x.call.schema p) = .ok old →
    ((∃ st', dispatch cfg x.env st x.who x.call = .ok st') ↔
      p ≤ cfg.maxPageId ∧ MayWrite cfg x m .paginated true ∧ h = hashOf cfg old)

/-- C83 is false of the code: the deletion of a page that does not exist succeeds for a target hash that is not that
of an empty page. -/
theorem C83_full_false : ¬ C83_full := fun hf => by
  have := (hf exCfg exStore ⟨exEnv, some 11, .deletePage 1 2 0 7⟩ 1 0 7 none exCfg_ok exStore_reachable
    (fun o h => by cases h; decide) rfl rfl (by decide)).1
    (Option.isSome_iff_exists.1 (show (dispatch exCfg exEnv exStore (some 11) (.deletePage 1 2 0 7)).toOption.isSome
      = true by decide) |>.imp fun st' h => by
        revert h
        cases dispatch exCfg exEnv exStore (some 11) (.deletePage 1 2 0 7) with
        | ok _ => intro h; exact congrArg Except.ok (Option.some.inj h)
        | error _ => intro h; cases h)
  exact absurd this.2.2 (by decide)

/-- C83, item actions: the call succeeds exactly if the actions are applicable to the items stored now, the call may
write, and its target hash is that of the page stored now. Then the items are the earlier ones without those at the
positions deleted, followed by those added, in order; what the query returns are these items with their positions, and
the nonce one higher (no page, if no items are left). -/
theorem C83_items_exact (cfg : Config) (hc : CfgOk cfg) (st : Store) (hst : Reachable cfg st) (x : Step)
    (hx : StepOk cfg x) (m : MsaId) (hm : x.call.owner x.env = some m) (h : Nat) (actions : List ItemAction)
    (hu : x.call.update = .items h actions) (old : Option Page)
    (hr : readAt cfg st (.items m x.call.schema) = .ok old) :
    ((∃ st', dispatch cfg x.env st x.who x.call = .ok st') ↔
      Applicable cfg (itemsAt cfg st m x.call.schema) actions ∧
      MayWrite cfg x m .itemized (decide (deletedPos actions ≠ [])) ∧ h = hashOf cfg old) ∧
    ∀ st', dispatch cfg x.env st x.who x.call = .ok st' →
      itemsAt cfg st' m x.call.schema =
        survivors (deletedPos actions) 0 (itemsAt cfg st m x.call.schema) ++ addedItems actions ∧
      ∃ new, readAt cfg st' (.items m x.call.schema) = .ok new ∧
        nonceOf new = (if itemsAt cfg st' m x.call.schema = [] then 0 else (nonceOf old + 1) % 65536) ∧
        (new = none ↔ itemsAt cfg st' m x.call.schema = []) := by
  have hb : Loc.InRange cfg (.items m x.call.schema) := by
    have := hx m hm
    rw [hu] at this
    exact this
  have hv : ∀ q ∈ old, PageOk cfg (.items m x.call.schema) q := by
    obtain ⟨v, h1, h2⟩ := (hst.storeOk hc).read hc hb
    have := h1.symm.trans hr
    simp only [Except.ok.injEq] at this
    subst this
    exact h2
  obtain ⟨f1, f2, f3, f4⟩ := itemsAt_of hc hr hv
  have hdel : isPruning actions = decide (deletedPos actions ≠ []) := by
    exact isPruning_eq actions
  refine ⟨?_, fun st' hd => ?_⟩
  · constructor
    · rintro ⟨st', hd⟩
      obtain ⟨h1, h2, h3⟩ := (dispatch_ok_iff cfg x st st' m hm).1 hd
      rw [hu] at h1 h2 h3
      obtain ⟨b1, b2, b3⟩ := mem_actionsFit.1 (show actionsFit cfg actions = true from h1)
      rw [← hdel]
      obtain ⟨o, new, g1, g2, _⟩ := exec_ok h3
      have : o = old := by have := g1.symm.trans hr; simpa using this
      subst this
      have key : h = hashOf cfg o ∧ ∃ q, applyItemActions cfg.maxItemizedPage (o.getD .default) actions = .ok q := by
        cases g2 with
        | items e ha _ => exact ⟨by rw [e, getHash_getD], _, ha⟩
        | cleared e ha _ => exact ⟨by rw [e, getHash_getD], _, ha⟩
      obtain ⟨e, q, hq⟩ := key
      rw [f3, C20_actions_exact _ _ _ f1 f2] at hq
      obtain ⟨a1, a2, a3, a4, _⟩ := hq
      rw [encodeItems_length_eq] at a4
      exact ⟨⟨b1, fun d hd => ⟨b2 d hd, by have := a3 d hd; omega⟩, a1, a2, a4⟩, h2, e⟩
    · rintro ⟨⟨b1, b2, a1, a2, a4⟩, h2, e⟩
      rw [← encodeItems_length_eq] at a4
      have hq := (C20_actions_exact cfg.maxItemizedPage (nonceOf old) _ f1 f2 actions
        ⟨0, encodeItems (survivors (deletedPos actions) 0 (itemsAt cfg st m x.call.schema) ++ addedItems actions)⟩).2
        ⟨a1, a2, fun d hd => by have := (b2 d hd).2; omega, a4, rfl, rfl⟩
      rw [← f3] at hq
      rw [← hdel] at h2
      rw [← getHash_getD] at e
      have hfit : actionsFit cfg actions = true :=
        mem_actionsFit.2 ⟨b1, fun d hd => (b2 d hd).1, fun i hi => by have := a2 i hi; omega⟩
      simp only [readAt] at hr
      have : ∃ st', updateItemized cfg st m x.call.schema h actions = .ok st' := by
        simp only [updateItemized, bind_eq_ok_iff, ensure_eq_ok_iff, hr, Except.ok.injEq, exists_eq_left', hq]
        split
        · exact ⟨_, (), e, rfl⟩
        · exact ⟨_, (), e, rfl⟩
      obtain ⟨st', h5⟩ := this
      refine ⟨st', (dispatch_ok_iff cfg x st _ m hm).2 ?_⟩
      rw [hu]
      exact ⟨hfit, h2, h5⟩
  · obtain ⟨o, new, g1, _, g2, g3⟩ := read_after hc hst hx hm hd
    rw [hu] at g1 g2 g3
    have : o = old := by have := g1.symm.trans hr; simpa using this
    subst this
    have hb' : actionsFit cfg actions = true := by
      have := ((dispatch_ok_iff cfg x st st' m hm).1 hd).1
      rw [hu] at this
      exact this
    have hnew : ∀ q ∈ new, PageOk cfg (.items m x.call.schema) q := Change.pageOk hc (u := .items h actions) hb' hv g2
    obtain ⟨_, _, n3, n4⟩ := itemsAt_of hc (show readAt cfg st' (.items m x.call.schema) = .ok new from g3) hnew
    have key : (new.getD .default).data =
        encodeItems (survivors (deletedPos actions) 0 (itemsAt cfg st m x.call.schema) ++ addedItems actions) ∧
        (new ≠ none → nonceOf new = (nonceOf o + 1) % 65536) := by
      cases g2 with
      | @items _ _ q e ha hne =>
        rw [f3, C20_actions_exact _ _ _ f1 f2] at ha
        exact ⟨ha.2.2.2.2.2, fun _ => by rw [← nonceOf_getD o]; rfl⟩
      | @cleared _ _ q e ha he =>
        rw [f3, C20_actions_exact _ _ _ f1 f2] at ha
        exact ⟨by rw [← ha.2.2.2.2.2, he]; rfl, fun hn => absurd rfl hn⟩
    have hitems : itemsAt cfg st' m x.call.schema =
        survivors (deletedPos actions) 0 (itemsAt cfg st m x.call.schema) ++ addedItems actions := by
      have k1 := key.1
      rw [n3] at k1
      obtain ⟨n1, n2, _⟩ := itemsAt_of hc (show readAt cfg st' (.items m x.call.schema) = .ok new from g3) hnew
      have hs2 : Fit (survivors (deletedPos actions) 0 (itemsAt cfg st m x.call.schema) ++ addedItems actions) := by
        cases g2 with
        | items e ha _ =>
          rw [f3, C20_actions_exact _ _ _ f1 f2] at ha
          intro z hz
          rcases List.mem_append.1 hz with hz | hz
          · exact fit_survivors f1 z hz
          · exact ha.2.2.1 z hz
        | cleared e ha _ =>
          rw [f3, C20_actions_exact _ _ _ f1 f2] at ha
          intro z hz
          rcases List.mem_append.1 hz with hz | hz
          · exact fit_survivors f1 z hz
          · exact ha.2.2.1 z hz
      exact encodeItems_inj n1 hs2 k1
    refine ⟨hitems, new, g3, ?_, n4⟩
    by_cases e : itemsAt cfg st' m x.call.schema = []
    · rw [if_pos e, n4.2 e]; rfl
    · rw [if_neg e]
      exact key.2 fun e' => e (n4.1 e')

/-- C83: the itemized query returns the hash, the nonce and the numbered items of what is stored. -/
theorem C83_items_query (cfg : Config) (hc : CfgOk cfg) (st : Store) (hst : Reachable cfg st) (env : Env) (m : MsaId)
    (s : SchemaId) (hm : m < cfg.accounts) (hs : s < 2 ^ 16) (info : SchemaInfo) (hi : env.schema s = some info)
    (hl : info.location = .itemized) :
    ∃ v, readAt cfg st (.items m s) = .ok v ∧
      getItemizedStorage cfg env st m s = .ok ⟨hashOf cfg v, nonceOf v, number 0 (itemsAt cfg st m s)⟩ := by
  obtain ⟨v, h1, h2⟩ := (hst.storeOk hc).read hc (l := .items m s) ⟨hm, hs⟩
  obtain ⟨f1, f2, f3, _⟩ := itemsAt_of hc h1 h2
  refine ⟨v, h1, ?_⟩
  have h1' : getItemizedPage cfg st m s = .ok v := h1
  simp only [getItemizedStorage, bind_eq_ok_iff]
  refine ⟨info, ?_, v, h1', ?_⟩
  · simp only [checkSchemaForRead, bind_eq_ok_iff, okOr_eq_ok_iff, ensure_eq_ok_iff, pure_eq_ok_iff]
    exact ⟨info, hi, (), hl, rfl⟩
  · have hp : tryParse (v.getD .default) false = .ok (number 0 (itemsAt cfg st m s)) := by
      rw [f3]
      exact C19_parse_of_encoded _ _ f1 f2
    rw [hp]
    simp only [getHash_getD, nonceOf_getD]
    rfl

/-- C83: the two queries succeed exactly for a schema that exists and is of their kind. -/
theorem C83_queries_succeed_iff (cfg : Config) (hc : CfgOk cfg) (st : Store) (hst : Reachable cfg st) (env : Env)
    (m : MsaId) (s : SchemaId) (hm : m < cfg.accounts) (hs : s < 2 ^ 16) :
    ((∃ r, getItemizedStorage cfg env st m s = .ok r) ↔ ∃ i, env.schema s = some i ∧ i.location = .itemized) ∧
    ((∃ r, getPaginatedStorage cfg env st m s = .ok r) ↔ ∃ i, env.schema s = some i ∧ i.location = .paginated) := by
  have hread : ∀ l, (∃ i, checkSchemaForRead env s l = .ok i) ↔ ∃ i, env.schema s = some i ∧ i.location = l := by
    intro l
    simp only [checkSchemaForRead, bind_eq_ok_iff, okOr_eq_ok_iff, ensure_eq_ok_iff, pure_eq_ok_iff]
    constructor
    · rintro ⟨i, i', h1, _, h2, rfl⟩; exact ⟨i', h1, h2⟩
    · rintro ⟨i, h1, h2⟩; exact ⟨i, i, h1, (), h2, rfl⟩
  constructor
  · constructor
    · rintro ⟨r, h⟩
      simp only [getItemizedStorage, bind_eq_ok_iff] at h
      obtain ⟨i, h1, _⟩ := h
      exact (hread _).1 ⟨i, h1⟩
    · rintro ⟨i, h1, h2⟩
      obtain ⟨v, _, h⟩ := C83_items_query cfg hc st hst env m s hm hs i h1 h2
      exact ⟨_, h⟩
  · constructor
    · rintro ⟨r, h⟩
      simp only [getPaginatedStorage, bind_eq_ok_iff] at h
      obtain ⟨i, h1, _⟩ := h
      exact (hread _).1 ⟨i, h1⟩
    · intro h
      obtain ⟨i, hi⟩ := (hread .paginated).2 h
      simp only [getPaginatedStorage, bind_eq_ok_iff]
      exact ⟨_, i, hi, rfl⟩

/-- Hypotheses met: schema 1 of the example is itemized, schema 2 paginated. -/
example : (getItemizedStorage exCfg exEnv exStore 1 1).toOption.isSome = true ∧
    (getPaginatedStorage exCfg exEnv exStore 1 2).toOption.isSome = true ∧
    (getItemizedStorage exCfg exEnv exStore 1 2).toOption.isSome = false ∧
    (getPaginatedStorage exCfg exEnv exStore 1 1).toOption.isSome = false := by
  decide

/-- Hypotheses met, and each kind of call accepted once. -/
example :
    let env := exEnv
    let add : Step := ⟨env, some 22, .applyItemActions 1 1 (hashOf exCfg (some ⟨1, encodeItems [[5, 6], [7]]⟩))
      [.delete 0, .add [9]]⟩
    (dispatch exCfg env exStore add.who add.call).toOption.isSome = true ∧
    itemsAt exCfg (apply exCfg exStore add) 1 1 = [[7], [9]] ∧
    Applicable exCfg (itemsAt exCfg exStore 1 1) [.delete 0, .add [9]] ∧
    readAt exCfg (apply exCfg exStore ⟨env, some 11, .upsertPage 1 2 3 (hashOf exCfg (some ⟨1, [1]⟩)) [4, 4]⟩)
      (.page 1 2 3) = .ok (some ⟨2, [4, 4]⟩) ∧
    readAt exCfg (apply exCfg exStore ⟨env, some 11, .deletePage 1 2 3 (hashOf exCfg (some ⟨1, [1]⟩))⟩)
      (.page 1 2 3) = .ok none := by
  refine ⟨by decide, by decide, ⟨by decide, by decide, by decide, by decide, by decide⟩, by decide, by decide⟩

end Verif.Stateful
