import Verif.Stateful.PropsReplay
/-!
# C70 for payloads of different kinds

Which pairs of kinds and versions of storage payloads (pallets/stateful-storage/src/types.rs 94-235) are told apart
by their signed bytes, and which are not.
-/

namespace Verif.Stateful

/-! ## Specification -/

/-- What a storage payload asks for. -/
inductive Asked where
  | items | upsert | delete
  deriving DecidableEq

/-- A signed storage payload. -/
inductive Payload where
  | items (p : ItemizedPayload)
  | upsert (p : UpsertPayload)
  | delete (p : DeletePayload)

/-- Its bytes. -/
def Payload.encode : Payload → Bytes
  | .items p => p.encode
  | .upsert p => p.encode
  | .delete p => p.encode

/-- Its fields fit their types. -/
def Payload.Sized : Payload → Prop
  | .items p => p.Sized
  | .upsert p => p.Sized
  | .delete p => p.Sized

/-- Its kind, and whether it is of the first version, which names the account. -/
def Payload.kind : Payload → Asked × Bool
  | .items p => (.items, p.msaId.isSome)
  | .upsert p => (.upsert, p.msaId.isSome)
  | .delete p => (.delete, p.msaId.isSome)

/-- C70 as stated: the bytes determine the payload. -/
def C70_full : Prop := ∀ p q : Payload, p.Sized → q.Sized → p.encode = q.encode → p = q

/-- The pairs of different kinds or versions that the bytes tell apart: deletions of pages from writes of the same
version, and deletions of the second version from everything of the first. -/
def Apart (a b : Asked × Bool) : Prop :=
  (a.1 = .delete ∧ b.1 = .upsert ∧ a.2 = b.2) ∨ (a = (.delete, false) ∧ b.2 = true)

instance (a b : Asked × Bool) : Decidable (Apart a b) := by unfold Apart; infer_instance

/-! ## Proofs -/

theorem compact_ne_nil (n : Nat) : 1 ≤ (Scale.compact n).length := by
  unfold Scale.compact
  repeat' split
  all_goals simp [Scale.length_leBytes]

theorem peel3 {a b c a' b' c' : Nat} {x y : Bytes} (ha : a < 2 ^ 32) (hb : b < 2 ^ 32) (hc : c < 2 ^ 32)
    (ha' : a' < 2 ^ 64) (hb' : b' < 2 ^ 32) (hc' : c' < 2 ^ 32)
    (h : Scale.compact a ++ (Scale.compact b ++ (Scale.compact c ++ x)) =
      Scale.compact64 a' ++ (Scale.compact b' ++ (Scale.compact c' ++ y))) : x = y := by
  rw [← Scale.compact64_eq a ha] at h
  obtain ⟨-, h⟩ := Scale.compact64_inj (by omega) ha' h
  obtain ⟨-, h⟩ := Scale.compact_inj hb hb' h
  exact (Scale.compact_inj hc hc' h).2

/-- C70 across kinds, partial: a deletion is never a write of the same version, and a deletion of the second version
is no payload of the first. Missing: all other pairs, for which it is false (`C70_kinds_collide`). -/
theorem C70_kinds_apart_partial (p q : Payload) (hp : p.Sized) (hq : q.Sized) (h : Apart p.kind q.kind) :
    p.encode ≠ q.encode := by
  intro he
  rcases h with ⟨h1, h2, h3⟩ | ⟨h1, h2⟩
  · cases p with
    | items p => exact absurd h1 (by simp [Payload.kind])
    | upsert p => exact absurd h1 (by simp [Payload.kind])
    | delete p =>
      cases q with
      | items q => exact absurd h2 (by simp [Payload.kind])
      | delete q => exact absurd h2 (by simp [Payload.kind])
      | upsert q =>
        obtain ⟨m, s, pg, th, e⟩ := p
        obtain ⟨m', s', pg', th', e', d'⟩ := q
        obtain ⟨p1, p2, p3, p4, p5⟩ := hp
        obtain ⟨q1, q2, q3, q4, q5, q6⟩ := hq
        simp only [Payload.encode, DeletePayload.encode, UpsertPayload.encode, Payload.kind] at *
        obtain ⟨-, he⟩ := msaId_inj h3 p1 q1 he
        obtain ⟨-, he⟩ := Scale.compact_inj (by omega) (by omega) he
        obtain ⟨-, he⟩ := Scale.compact_inj (by omega) (by omega) he
        obtain ⟨-, he⟩ := Scale.compact_inj (by omega) (by omega) he
        have := congrArg List.length he
        have hc := compact_ne_nil d'.length
        simp only [Scale.u32, Scale.vecU8, List.length_append, Scale.length_leBytes] at this
        omega
  · cases p with
    | items p => exact absurd h1 (by simp [Payload.kind])
    | upsert p => exact absurd h1 (by simp [Payload.kind])
    | delete p =>
      obtain ⟨m, s, pg, th, e⟩ := p
      obtain ⟨p1, p2, p3, p4, p5⟩ := hp
      have hm : m = none := by
        cases m with
        | none => rfl
        | some m => exact absurd h1 (by simp [Payload.kind])
      subst hm
      cases q with
      | items q =>
        obtain ⟨m', s', th', e', a'⟩ := q
        obtain ⟨m', rfl⟩ := Option.isSome_iff_exists.1 h2
        obtain ⟨q1, q2, q3, q4, q5⟩ := hq
        simp only [Payload.encode, DeletePayload.encode, ItemizedPayload.encode, encodeMsa, List.nil_append] at *
        have he := peel3 (by omega) (by omega) (by omega) (q1 m' rfl) (by omega) (by omega) he
        have := congrArg List.length he
        have hc := compact_ne_nil a'.length
        simp only [Scale.u32, Scale.vecOf, List.length_append, Scale.length_leBytes] at this
        omega
      | upsert q =>
        obtain ⟨m', s', pg', th', e', d'⟩ := q
        obtain ⟨m', rfl⟩ := Option.isSome_iff_exists.1 h2
        obtain ⟨q1, q2, q3, q4, q5, q6⟩ := hq
        simp only [Payload.encode, DeletePayload.encode, UpsertPayload.encode, encodeMsa, List.nil_append] at *
        have he := peel3 (by omega) (by omega) (by omega) (q1 m' rfl) (by omega) (by omega) he
        have := congrArg List.length he
        have hc := compact_ne_nil th'
        have hd := compact_ne_nil d'.length
        simp only [Scale.u32, Scale.vecU8, List.length_append, Scale.length_leBytes] at this
        omega
      | delete q =>
        obtain ⟨m', s', pg', th', e'⟩ := q
        obtain ⟨m', rfl⟩ := Option.isSome_iff_exists.1 h2
        obtain ⟨q1, q2, q3, q4, q5⟩ := hq
        simp only [Payload.encode, DeletePayload.encode, encodeMsa, List.nil_append] at *
        have he := peel3 (by omega) (by omega) (by omega) (q1 m' rfl) (by omega) (by omega) he
        have := congrArg List.length he
        have hc := compact_ne_nil th'
        simp only [Scale.u32, List.length_append, Scale.length_leBytes] at this
        omega

theorem sized_items {m : Option MsaId} {s th e : Nat} {a : List ItemAction} (h1 : ∀ x ∈ m, x < 2 ^ 64)
    (h2 : s < 2 ^ 16 ∧ th < 2 ^ 32 ∧ e < 2 ^ 32) (h3 : a = [] ∨ a = [.add []]) :
    (Payload.items ⟨m, s, th, e, a⟩).Sized :=
  ⟨h1, h2.1, h2.2.1, h2.2.2, by rcases h3 with rfl | rfl <;> simp, by
    rcases h3 with rfl | rfl <;> simp [ItemAction.Sized]⟩

theorem sized_upsert {m : Option MsaId} {s p th e : Nat} {d : Bytes} (h1 : ∀ x ∈ m, x < 2 ^ 64)
    (h2 : s < 2 ^ 16 ∧ p < 2 ^ 16 ∧ th < 2 ^ 32 ∧ e < 2 ^ 32 ∧ d.length < 2 ^ 32) :
    (Payload.upsert ⟨m, s, p, th, e, d⟩).Sized :=
  ⟨h1, h2.1, h2.2.1, h2.2.2.1, h2.2.2.2.1, h2.2.2.2.2⟩

theorem sized_delete {m : Option MsaId} {s p th e : Nat} (h1 : ∀ x ∈ m, x < 2 ^ 64)
    (h2 : s < 2 ^ 16 ∧ p < 2 ^ 16 ∧ th < 2 ^ 32 ∧ e < 2 ^ 32) : (Payload.delete ⟨m, s, p, th, e⟩).Sized :=
  ⟨h1, h2.1, h2.2.1, h2.2.2.1, h2.2.2.2⟩

/-- Two payloads of given kinds with the same bytes. -/
def Collide (a b : Asked × Bool) : Prop :=
  ∃ p q : Payload, p.Sized ∧ q.Sized ∧ p.kind = a ∧ q.kind = b ∧ p.encode = q.encode

theorem Collide.symm {a b : Asked × Bool} (h : Collide a b) : Collide b a := by
  obtain ⟨p, q, h1, h2, h3, h4, h5⟩ := h
  exact ⟨q, p, h2, h1, h4, h3, h5.symm⟩

/-- C70 is false of the code for every pair of different kinds or versions other than those of
`C70_kinds_apart_partial`: two payloads with the same bytes. -/
theorem C70_kinds_collide (a b : Asked × Bool) (hne : a ≠ b) (h1 : ¬ Apart a b) (h2 : ¬ Apart b a) :
    ∃ p q : Payload, p.Sized ∧ q.Sized ∧ p.kind = a ∧ q.kind = b ∧ p.encode = q.encode := by
  have iu : Collide (.items, true) (.upsert, true) :=
    ⟨.items ⟨some 15, 12, 12, 805463041, [.add []]⟩, .upsert ⟨some 15, 12, 12, 6400, 274434, []⟩,
      sized_items (by simp) (by decide) (by simp), sized_upsert (by simp) (by decide), rfl, rfl, by decide⟩
  have idl : Collide (.items, true) (.delete, true) :=
    ⟨.items ⟨some 1, 1, 7, 151343108, []⟩, .delete ⟨some 1, 1, 7, 1, 591184⟩,
      sized_items (by simp) (by decide) (by simp), sized_delete (by simp) (by decide), rfl, rfl, by decide⟩
  have ii : Collide (.items, true) (.items, false) :=
    ⟨.items ⟨some 1, 5, 64, 263176, []⟩, .items ⟨none, 1, 5, 67633409, [.add []]⟩,
      sized_items (by simp) (by decide) (by simp), sized_items (by simp) (by decide) (by simp), rfl, rfl, by decide⟩
  have iu2 : Collide (.items, true) (.upsert, false) :=
    ⟨.items ⟨some 6, 10, 1, 526594, []⟩, .upsert ⟨none, 6, 10, 1, 526594, []⟩,
      sized_items (by simp) (by decide) (by simp), sized_upsert (by simp) (by decide), rfl, rfl, by decide⟩
  have ui2 : Collide (.upsert, true) (.items, false) :=
    ⟨.upsert ⟨some 1, 2, 0, 0, 263940, []⟩, .items ⟨none, 1, 2, 117702656, [.add []]⟩,
      sized_upsert (by simp) (by decide), sized_items (by simp) (by decide) (by simp), rfl, rfl, by decide⟩
  have uu : Collide (.upsert, true) (.upsert, false) :=
    ⟨.upsert ⟨some 1, 1, 3, 1, 67174402, []⟩, .upsert ⟨none, 1, 1, 3, 16777732, [0]⟩,
      sized_upsert (by simp) (by decide), sized_upsert (by simp) (by decide), rfl, rfl, by decide⟩
  have di2 : Collide (.delete, true) (.items, false) :=
    ⟨.delete ⟨some 12, 1, 1536, 9, 1024⟩, .items ⟨none, 12, 1, 2365441, [.add []]⟩,
      sized_delete (by simp) (by decide), sized_items (by simp) (by decide) (by simp), rfl, rfl, by decide⟩
  have du2 : Collide (.delete, true) (.upsert, false) :=
    ⟨.delete ⟨some 1, 1, 7, 1, 591184⟩, .upsert ⟨none, 1, 1, 7, 151343108, []⟩,
      sized_delete (by simp) (by decide), sized_upsert (by simp) (by decide), rfl, rfl, by decide⟩
  have i2u2 : Collide (.items, false) (.upsert, false) :=
    ⟨.items ⟨none, 1538, 0, 12583945, [.add []]⟩, .upsert ⟨none, 1538, 0, 258, 262336, []⟩,
      sized_items (by simp) (by decide) (by simp), sized_upsert (by simp) (by decide), rfl, rfl, by decide⟩
  have i2d2 : Collide (.items, false) (.delete, false) :=
    ⟨.items ⟨none, 1, 0, 671613184, []⟩, .delete ⟨none, 1, 0, 0, 2623489⟩,
      sized_items (by simp) (by decide) (by simp), sized_delete (by simp) (by decide), rfl, rfl, by decide⟩
  show Collide a b
  obtain ⟨a, v⟩ := a
  obtain ⟨b, w⟩ := b
  cases a <;> cases v <;> cases b <;> cases w
  all_goals first
    | exact absurd rfl hne
    | exact absurd (by decide) h1
    | exact absurd (by decide) h2
    | exact iu | exact iu.symm | exact idl | exact idl.symm | exact ii | exact ii.symm | exact iu2 | exact iu2.symm
    | exact ui2 | exact ui2.symm | exact uu | exact uu.symm | exact di2 | exact di2.symm | exact du2 | exact du2.symm
    | exact i2u2 | exact i2u2.symm | exact i2d2 | exact i2d2.symm

/-- C70 is false of the code. -/
theorem C70_full_false : ¬ C70_full := fun hf => by
  obtain ⟨p, q, h1, h2, h3, h4, h5⟩ := C70_kinds_collide (.delete, true) (.upsert, false) (by decide) (by decide)
    (by decide)
  have := hf p q h1 h2 h5
  rw [this, h4] at h3
  cases h3

/-- Hypotheses met: a deletion and a write of the first version, and a deletion of the second with a request for items
of the first. -/
example : Apart (Payload.delete ⟨some 1, 1, 7, 1, 591184⟩).kind
      (Payload.upsert ⟨some 1, 1, 7, 1, 591184, [1]⟩).kind ∧
    Apart (Payload.delete ⟨none, 1, 7, 1, 591184⟩).kind (Payload.items ⟨some 1, 1, 7, 1, []⟩).kind ∧
    ¬ Apart (.items, true) (.upsert, true) ∧ ¬ Apart (.upsert, true) (.items, true) := by
  decide

end Verif.Stateful
