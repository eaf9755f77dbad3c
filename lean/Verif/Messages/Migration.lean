import Verif.Messages.Props
/-!
# Upgrade of the message storage to version 2

pallets/messages/src/migration/v2.rs. Before it a block and schema held one list of messages, each with its
index; afterwards every message has a storage entry of its own. The migration is not in the list of the
runtime any more (runtime/frequency/src/lib.rs 321-322), chains at version 1 ran it.

Simplifications: weights and log lines are left out, as are the checks that only run under `try-runtime`.
-/

namespace Verif.Messages

open Verif.Schemas (Location)

/-- `old::OldMessage`, migration/v2.rs 20-36. -/
structure OldMsg where
  payload : Bytes
  provider : MsaId
  author : Option MsaId
  index : Nat
  deriving DecidableEq, Repr

/-- What the migration reads and writes: the storage version, `old::Messages` (migration/v2.rs 39-51) and the
storage of the current release. -/
structure Upgrade where
  version : Nat
  old : SMap (BlockNumber × SchemaId) (List OldMsg)
  state : State

/-- The inner loop, migration/v2.rs 118-126. -/
def moveList (b : BlockNumber) (schema : SchemaId) (l : List OldMsg)
    (m : SMap (BlockNumber × SchemaId × Nat) Msg) : SMap (BlockNumber × SchemaId × Nat) Msg :=
  l.foldl (fun m o => m.insert (b, schema, o.index) ⟨o.payload, o.provider, o.author⟩) m

/-- `migrate_to_v2`, migration/v2.rs 106-149. `drain` visits the entries in some order and removes them. -/
def migrateV2 (u : Upgrade) : Upgrade :=
  if u.version < 2 then
    { version := 2
      old := ∅
      state := { u.state with
        msgs := u.old.entries.foldl (fun m e => moveList e.1.1 e.1.2 e.2 m) u.state.msgs } }
  else u

/-! ## What the property speaks about -/

/-- The old list of a block and schema (`ValueQuery`). -/
def Upgrade.list (u : Upgrade) (b : BlockNumber) (schema : SchemaId) : List OldMsg := (u.old.get (b, schema)).getD []

/-- The old message as the query of the current release presents it. -/
def OldMsg.response (o : OldMsg) (b : BlockNumber) (loc : Location) : Response :=
  toResponse ⟨o.payload, o.provider, o.author⟩ b loc o.index

/-! ## Lemmas -/

theorem moveList_other {b sch l} : ∀ {m : SMap (BlockNumber × SchemaId × Nat) Msg} {b' sch' i},
    ¬(b' = b ∧ sch' = sch ∧ ∃ o ∈ l, o.index = i) → (moveList b sch l m).get (b', sch', i) = m.get (b', sch', i) := by
  induction l with
  | nil => intro m b' sch' i _; rfl
  | cons o rest ih =>
    intro m b' sch' i h
    show (moveList b sch rest (m.insert (b, sch, o.index) _)).get _ = _
    rw [ih (fun ⟨h1, h2, x, hx, h3⟩ => h ⟨h1, h2, x, List.mem_cons_of_mem _ hx, h3⟩), SMap.get_insert, if_neg]
    intro e
    cases e
    exact h ⟨rfl, rfl, o, List.mem_cons_self, rfl⟩

theorem moveList_mem {b sch l} : ∀ {m : SMap (BlockNumber × SchemaId × Nat) Msg},
    (l.map OldMsg.index).Nodup → ∀ o ∈ l,
    (moveList b sch l m).get (b, sch, o.index) = some ⟨o.payload, o.provider, o.author⟩ := by
  induction l with
  | nil => intro m _ o ho; cases ho
  | cons x rest ih =>
    intro m hn o ho
    rw [List.map_cons, List.nodup_cons] at hn
    show (moveList b sch rest (m.insert (b, sch, x.index) _)).get _ = _
    rcases List.mem_cons.1 ho with rfl | ho
    · rw [moveList_other, SMap.get_insert_self]
      rintro ⟨-, -, y, hy, e⟩
      exact hn.1 (List.mem_map.2 ⟨y, hy, e⟩)
    · exact ih hn.2 o ho

theorem moveAll_other {es : List ((BlockNumber × SchemaId) × List OldMsg)} : ∀ {m b sch i},
    (∀ e ∈ es, e.1 = (b, sch) → ∀ o ∈ e.2, o.index ≠ i) →
    (es.foldl (fun m e => moveList e.1.1 e.1.2 e.2 m) m).get (b, sch, i) = m.get (b, sch, i) := by
  induction es with
  | nil => intro m b sch i _; rfl
  | cons e rest ih =>
    intro m b sch i h
    rw [List.foldl_cons, ih (fun x hx => h x (List.mem_cons_of_mem _ hx)), moveList_other]
    rintro ⟨h1, h2, o, ho, hi⟩
    exact h e List.mem_cons_self (by rw [h1, h2]) o ho hi

theorem moveAll_mem {es : List ((BlockNumber × SchemaId) × List OldMsg)} : ∀ {m b sch l},
    (es.map Prod.fst).Nodup → ((b, sch), l) ∈ es → (l.map OldMsg.index).Nodup → ∀ o ∈ l,
    (es.foldl (fun m e => moveList e.1.1 e.1.2 e.2 m) m).get (b, sch, o.index) =
      some ⟨o.payload, o.provider, o.author⟩ := by
  induction es with
  | nil => intro m b sch l _ h; cases h
  | cons e rest ih =>
    intro m b sch l hn h hl o ho
    rw [List.map_cons, List.nodup_cons] at hn
    rw [List.foldl_cons]
    rcases List.mem_cons.1 h with h | h
    · subst h
      rw [moveAll_other, moveList_mem hl o ho]
      intro x hx hxe
      exact absurd (List.mem_map.2 ⟨x, hx, hxe⟩) hn.1
    · exact ih hn.2 h hl o ho

theorem migrateV2_get (u : Upgrade) (hv : u.version < 2) (b : BlockNumber) (schema : SchemaId)
    (hd : ((u.list b schema).map OldMsg.index).Nodup) (i : Nat) :
    (∀ o ∈ u.list b schema, o.index = i →
      (migrateV2 u).state.msgs.get (b, schema, i) = some ⟨o.payload, o.provider, o.author⟩) ∧
    ((∀ o ∈ u.list b schema, o.index ≠ i) →
      (migrateV2 u).state.msgs.get (b, schema, i) = u.state.msgs.get (b, schema, i)) := by
  simp only [migrateV2, if_pos hv]
  constructor
  · rintro o ho rfl
    cases hg : u.old.get (b, schema) with
    | none => simp [Upgrade.list, hg] at ho
    | some l =>
      simp only [Upgrade.list, hg, Option.getD_some] at ho hd
      exact moveAll_mem u.old.nodup ((SMap.mem_entries_iff _ _ _).2 hg) hd o ho
  · intro h
    rw [moveAll_other]
    rintro ⟨k, l⟩ he rfl o ho
    have := (SMap.mem_entries_iff _ _ _).1 he
    exact h o (by simp only [Upgrade.list, this, Option.getD_some]; exact ho)

/-! ## C96 -/

/-- C96: after the upgrade the query for a block and schema lists the messages of the old list — the same
provider, author, payload and index — in the order of their indices, for every old storage in which the
messages of the block and schema had distinct indices and nothing was stored in the new layout. -/
theorem C96_messages_kept (u : Upgrade) (hv : u.version < 2) (b : BlockNumber) (schema : SchemaId) (loc : Location)
    (hl : loc = .onChain ∨ loc = .ipfs) (hd : ((u.list b schema).map OldMsg.index).Nodup)
    (hnew : ∀ i, u.state.msgs.get (b, schema, i) = none) :
    (getMessages (migrateV2 u).state schema loc b).Perm ((u.list b schema).map (fun o => o.response b loc)) ∧
    (getMessages (migrateV2 u).state schema loc b).Pairwise (fun x y => x.index < y.index) := by
  have hgets := fun i => migrateV2_get u hv b schema hd i
  generalize (migrateV2 u).state = s at *
  have hget : getMessages s schema loc b =
      ((s.msgs.entries.filter (fun e => e.1.1 = b ∧ e.1.2.1 = schema)).map
        (fun e => toResponse e.2 b loc e.1.2.2)).mergeSort (fun a b => decide (a.index ≤ b.index)) := by
    unfold getMessages
    rcases hl with rfl | rfl <;> rfl
  have hidx : ∀ m i, (toResponse m b loc i).index = i := by
    intro m i
    rcases hl with rfl | rfl <;> rfl
  have hnd : ((u.list b schema).map (fun o => o.response b loc)).Nodup := by
    refine List.Nodup.of_map Response.index ?_
    rw [List.map_map]
    have : (Response.index ∘ fun o : OldMsg => o.response b loc) = OldMsg.index := by
      funext o; exact hidx _ _
    rw [this]
    exact hd
  have hperm : (getMessages s schema loc b).Perm ((u.list b schema).map (fun o => o.response b loc)) := by
    rw [hget]
    refine (List.mergeSort_perm _ _).trans ?_
    rw [List.perm_ext_iff_of_nodup _ hnd]
    · intro x
      simp only [List.mem_map, List.mem_filter, decide_eq_true_eq, Prod.exists]
      constructor
      · rintro ⟨b', sch, i, m, ⟨hm, rfl, rfl⟩, rfl⟩
        rw [SMap.mem_entries_iff] at hm
        by_cases h : ∃ o ∈ u.list b' sch, o.index = i
        · obtain ⟨o, ho, rfl⟩ := h
          rw [(hgets _).1 o ho rfl] at hm
          cases hm
          exact ⟨o, ho, rfl⟩
        · rw [(hgets _).2 (fun o ho e => h ⟨o, ho, e⟩), hnew] at hm
          cases hm
      · rintro ⟨o, ho, rfl⟩
        exact ⟨b, schema, o.index, _, ⟨(SMap.mem_entries_iff _ _ _).2 ((hgets _).1 o ho rfl), rfl, rfl⟩, rfl⟩
    · refine List.Nodup.map_on ?_ ?_
      · rintro ⟨⟨b1, s1, i1⟩, m1⟩ h1 ⟨⟨b2, s2, i2⟩, m2⟩ h2 e
        simp only [List.mem_filter, decide_eq_true_eq] at h1 h2
        obtain ⟨h1, rfl, rfl⟩ := h1
        obtain ⟨h2, rfl, rfl⟩ := h2
        have hi := congrArg Response.index e
        simp only [hidx] at hi
        subst hi
        rw [SMap.mem_entries_iff] at h1 h2
        rw [h1] at h2
        cases h2
        rfl
      · exact (List.Nodup.of_map _ s.msgs.nodup).filter _
  refine ⟨hperm, ?_⟩
  have hle : (getMessages s schema loc b).Pairwise (fun x y => x.index ≤ y.index) := by
    rw [hget]
    exact (List.pairwise_mergeSort (le := fun a b : Response => decide (a.index ≤ b.index))
      (by intro a b c; simp; omega) (by intro a b; simp; omega) _).imp (by simp)
  have hne : (getMessages s schema loc b).Pairwise (fun x y => x.index ≠ y.index) := by
    have : ((getMessages s schema loc b).map Response.index).Nodup := by
      refine ((hperm.map Response.index).nodup_iff).2 ?_
      rw [List.map_map]
      have : (Response.index ∘ fun o : OldMsg => o.response b loc) = OldMsg.index := by
        funext o; exact hidx _ _
      rw [this]
      exact hd
    exact List.pairwise_map.1 this
  exact (hle.and hne).imp (fun ⟨h1, h2⟩ => by omega)

/-- C96: messages of blocks and schemas without an old list, and the rest of the state, stay as they were;
the old lists are gone and the version is 2. A chain already at version 2 is not changed, so running the
upgrade again changes nothing. -/
theorem C96_rest_untouched (u : Upgrade) :
    (∀ b schema i, u.list b schema = [] →
      (migrateV2 u).state.msgs.get (b, schema, i) = u.state.msgs.get (b, schema, i)) ∧
    (migrateV2 u).state.block = u.state.block ∧ (migrateV2 u).state.index = u.state.index ∧
    (migrateV2 u).state.events = u.state.events ∧
    (u.version < 2 → (migrateV2 u).version = 2 ∧ ∀ k, (migrateV2 u).old.get k = none) ∧
    (2 ≤ u.version → migrateV2 u = u) ∧ migrateV2 (migrateV2 u) = migrateV2 u := by
  by_cases hv : u.version < 2
  · refine ⟨?_, ?_, ?_, ?_, ?_, ?_, ?_⟩
    · intro b schema i h
      refine (migrateV2_get u hv b schema (by simp [h]) i).2 ?_
      simp [h]
    · simp [migrateV2, hv]
    · simp [migrateV2, hv]
    · simp [migrateV2, hv]
    · intro _
      simp [migrateV2, hv]
    · omega
    · simp [migrateV2, hv]
  · simp [migrateV2, hv]

/-- C96: a list in ascending order of indices — the order of arrival — is returned exactly. -/
theorem C96_in_order (u : Upgrade) (hv : u.version < 2) (b : BlockNumber) (schema : SchemaId) (loc : Location)
    (hl : loc = .onChain ∨ loc = .ipfs) (hs : (u.list b schema).Pairwise (fun x y => x.index < y.index))
    (hnew : ∀ i, u.state.msgs.get (b, schema, i) = none) :
    getMessages (migrateV2 u).state schema loc b = (u.list b schema).map (fun o => o.response b loc) := by
  have hd : ((u.list b schema).map OldMsg.index).Nodup := by
    rw [List.Nodup, List.pairwise_map]
    exact hs.imp (fun h => by omega)
  obtain ⟨h1, h2⟩ := C96_messages_kept u hv b schema loc hl hd hnew
  refine sorted_eq h1 (h2.imp (fun h => by omega)) ?_
  rw [List.pairwise_map]
  refine hs.imp ?_
  intro x y h
  have hidx : ∀ m i, (toResponse m b loc i).index = i := by
    intro m i
    rcases hl with rfl | rfl <;> rfl
  rw [OldMsg.response, OldMsg.response, hidx, hidx]
  exact h

/-- A chain at version 1: block 7 has three messages under two schemas, block 9 one. -/
def exUpgrade : Upgrade :=
  ⟨1, (((∅ : SMap (BlockNumber × SchemaId) (List OldMsg)).insert (7, 1) [⟨[1], 5, some 6, 0⟩, ⟨[2], 5, none, 2⟩]).insert
    (7, 2) [⟨[3], 4, none, 1⟩]).insert (9, 1) [⟨[4], 5, some 5, 0⟩], { State.init with block := 12 }⟩

/-- The hypotheses of `C96_in_order` hold of it; the two messages of block 7 under schema 1 are listed. -/
example : getMessages (migrateV2 exUpgrade).state 1 .onChain 7 =
    [⟨5, 0, 7, some 6, some [1], none, none⟩, ⟨5, 2, 7, none, some [2], none, none⟩] :=
  C96_in_order exUpgrade (by decide) 7 1 .onChain (Or.inl rfl) (by decide) (fun _ => rfl)

/-- Without distinct indices a message would be lost: the hypothesis is needed. -/
example : (migrateV2 ⟨1, (∅ : SMap (BlockNumber × SchemaId) (List OldMsg)).insert (7, 1)
    [⟨[1], 5, none, 0⟩, ⟨[2], 5, none, 0⟩], .init⟩).state.msgs.size = 1 := by decide

end Verif.Messages
