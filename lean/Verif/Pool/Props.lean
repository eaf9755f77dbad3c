import Verif.Pool.Lemmas
import Verif.Whole.Props
import Verif.Wrapped.PropsQuiet
/-!
# Properties of waiting transactions
-/

namespace Verif.Pool

/-- What can be submitted to a node. `mark` and `priority` as in `Tx`. -/
inductive Submission where
  | signed (mark priority : Nat) (t : Wrapped.Signed)
  | passkey (mark priority : Nat) (fee : Balance) (p : Whole.Payload)

/-- Its account. -/
def Submission.account : Submission → AccountId
  | .signed _ _ t => t.who
  | .passkey _ _ _ p => p.account

/-- Its number. -/
def Submission.number : Submission → Nat
  | .signed _ _ t => t.nonce
  | .passkey _ _ _ p => p.nonce

/-- The answer of the runtime. -/
def check (cfg : Whole.Config) (s : Wrapped.State) : Submission → Option Tx
  | .signed mark priority t => validate cfg.wrapped s mark priority t
  | .passkey mark priority fee p => validatePasskey cfg s mark priority fee p

/-- A transaction is submitted while the chain is in state `s`. -/
def submit (cfg : Whole.Config) (s : Wrapped.State) (p : Pool) (x : Submission) : Pool :=
  match check cfg s x with
  | none => p
  | some t => p.add t

/-- Pools as they can become, with what was submitted and found valid, in whatever states of the chain. -/
inductive Reach (cfg : Whole.Config) : Pool → List (Submission × Tx) → Prop
  | empty : Reach cfg .empty []
  | add {p : Pool} {log : List (Submission × Tx)} (s : Wrapped.State) (x : Submission) (t : Tx) :
      Reach cfg p log → check cfg s x = some t → Reach cfg (p.add t) ((x, t) :: log)
  | leave {p : Pool} {log : List (Submission × Tx)} (stays : Tx → Bool) : Reach cfg p log → Reach cfg (p.leave stays) log

/-- The tag of a submission besides its number. -/
def Submission.kind : Submission → Option Kind
  | .signed _ _ t => kindOf t.call
  | .passkey .. => none

theorem check_tx {cfg : Whole.Config} {s : Wrapped.State} {x : Submission} {t : Tx} (h : check cfg s x = some t) :
    t.who = x.account ∧ t.number = x.number ∧ s.nonces t.who ≤ t.number ∧ t.requires = before s t.who t.number ∧
    t.provides = .number t.who t.number :: (x.kind.map (Tag.free · t.who)).toList := by
  cases x with
  | signed mark priority u =>
    simp only [check, validate] at h
    split at h
    · rename_i hn
      cases hp : Wrapped.pay cfg.wrapped s.world.tokens u with
      | none => simp [hp] at h
      | some k =>
        simp only [hp, Option.bind_eq_bind, Option.bind_some] at h
        split at h
        · rw [← Option.some.inj h]
          exact ⟨rfl, rfl, hn, rfl, rfl⟩
        · cases h
    · cases h
  | passkey mark priority fee p =>
    simp only [check, validatePasskey] at h
    split at h
    · cases h
    split at h
    · split at h
      · split at h
        · rename_i hn
          cases hp : Tokens.fee cfg.wrapped.wallet.tokens s.world.tokens p.account fee with
          | none => simp [hp] at h
          | some k =>
            simp only [hp, Option.bind_eq_bind, Option.bind_some] at h
            rw [← Option.some.inj h]
            exact ⟨rfl, rfl, hn, rfl, rfl⟩
        · cases h
      · cases h
    · cases h

theorem check_own {cfg : Whole.Config} {s : Wrapped.State} {x : Submission} {t : Tx} (h : check cfg s x = some t) :
    Own t := by
  obtain ⟨-, -, -, h1, h2⟩ := check_tx h
  refine ⟨fun g hg => ?_, fun g hg => ?_⟩
  · rw [h1] at hg
    unfold before at hg
    split at hg
    · rw [List.mem_singleton.1 hg]
      rfl
    · cases hg
  · rw [h2] at hg
    rcases List.mem_cons.1 hg with rfl | hg
    · rfl
    · rw [Option.mem_toList, Option.map_eq_some_iff] at hg
      obtain ⟨k, -, rfl⟩ := hg
      rfl

theorem reach_ok {cfg : Whole.Config} {p : Pool} {log : List (Submission × Tx)} (h : Reach cfg p log) : Ok p := by
  induction h with
  | empty => exact empty_ok
  | add s x t _ hc ih => exact add_ok ih (check_own hc)
  | leave stays _ ih => exact leave_ok ih stays

/-! ## C143: what makes a transaction leave -/

/-- Whether a transaction was sent by an account: it signed it, or its passkey did. -/
def SentBy (cfg : Whole.Config) (who : AccountId) : Submission → Prop
  | .signed _ _ t => t.who = who
  | .passkey _ _ _ p => p.account = who ∧ cfg.verify p.proof who (Msa.wrap p.publicKey) = true ∧ cfg.passkeyValid p = true

/-- C143: a submission makes a transaction leave the ready ones, or the pool, only if it was sent by the same account. -/
def C143_full : Prop := ∀ (cfg : Whole.Config) (p : Pool) (log : List (Submission × Tx)), Reach cfg p log →
  ∀ (s : Wrapped.State) (x : Submission) (u : Tx), ¬ SentBy cfg u.who x →
    (u ∈ p.ready → u ∈ (submit cfg s p x).ready) ∧ (u ∈ p.future → u ∈ (submit cfg s p x).future)

/-- C143, what is missing is that the passkey has to sign: a submission changes only what waits of its own account, and
has to be signed by the account or come with a signature of the account on the public key of the passkey. -/
theorem C143_own_partial (cfg : Whole.Config) (p : Pool) (log : List (Submission × Tx)) (h : Reach cfg p log)
    (s : Wrapped.State) (x : Submission) (u : Tx)
    (hx : match x with
      | .signed _ _ t => t.who ≠ u.who
      | .passkey _ _ _ y => y.account ≠ u.who ∨ cfg.verify y.proof y.account (Msa.wrap y.publicKey) = false) :
    (u ∈ (submit cfg s p x).ready ↔ u ∈ p.ready) ∧ (u ∈ (submit cfg s p x).future ↔ u ∈ p.future) := by
  unfold submit
  cases hc : check cfg s x with
  | none => exact ⟨Iff.rfl, Iff.rfl⟩
  | some t =>
    refine add_others (reach_ok h) (check_own hc) ?_
    rw [(check_tx hc).1]
    cases x with
    | signed mark priority y => exact fun e => hx e.symm
    | passkey mark priority fee y =>
      rcases hx with hx | hx
      · exact fun e => hx e.symm
      · exfalso
        simp only [check, validatePasskey, hx, Bool.false_eq_true, ↓reduceIte, ite_self] at hc
        cases hc

/-- C143: tags do not meet by accident. The bytes of two tags of the runtime are the same only if the tags are, for
numbers of 4 bytes and accounts of 32 bytes that are different for different accounts. -/
theorem C143_tags (account : AccountId → Bytes) (hl : ∀ a, (account a).length = 32)
    (g g' : Tag) (hi : account g.who = account g'.who → g.who = g'.who) (hn : ∀ who n, g = .number who n → n < 2 ^ 32) (hn' : ∀ who n, g' = .number who n → n < 2 ^ 32)
    (h : g.bytes account = g'.bytes account) : g = g' := by
  have len : ∀ k : Kind, (Scale.vecU8 k.tagPrefix.toUTF8.toList).length = match k with
      | .delegator => 30 | .provider => 29 | .key => 14 | .retire => 14 := by
    intro k
    cases k <;> decide +kernel
  have inj : ∀ k k' : Kind, Scale.vecU8 k.tagPrefix.toUTF8.toList = Scale.vecU8 k'.tagPrefix.toUTF8.toList → k = k' := by
    intro k k'
    cases k <;> cases k' <;> decide +kernel
  have hlen := congrArg List.length h
  cases g with
  | number a n =>
    cases g' with
    | number b m =>
      obtain ⟨h1, h2⟩ := List.append_inj h (by rw [hl, hl])
      have h3 : n = m := Scale.leBytes_inj (by have := hn a n rfl; omega) (by have := hn' b m rfl; omega) h2
      have h4 : a = b := hi h1
      rw [h4, h3]
    | free k b =>
      exfalso
      simp only [Tag.bytes, List.length_append, hl, len, Scale.u32, Scale.length_leBytes] at hlen
      cases k <;> simp at hlen
  | free k a =>
    cases g' with
    | number b m =>
      exfalso
      simp only [Tag.bytes, List.length_append, hl, len, Scale.u32, Scale.length_leBytes] at hlen
      cases k <;> simp at hlen
    | free k' b =>
      obtain ⟨h1, h2⟩ := List.append_inj' h (by rw [hl, hl])
      have h3 : a = b := hi h2
      rw [inj k k' h1, h3]

/-! ## C144: free transactions -/

/-- Both are free calls of the same kind. -/
inductive SameKind : Wrapped.Call → Wrapped.Call → Prop
  | delegator (a b) : SameKind (.leaf (.msa (.revokeDelegationByDelegator a))) (.leaf (.msa (.revokeDelegationByDelegator b)))
  | provider (a b) : SameKind (.leaf (.msa (.revokeDelegationByProvider a))) (.leaf (.msa (.revokeDelegationByProvider b)))
  | key (a b) : SameKind (.leaf (.msa (.deleteMsaPublicKey a))) (.leaf (.msa (.deleteMsaPublicKey b)))
  | retire : SameKind (.leaf (.msa .retireMsa)) (.leaf (.msa .retireMsa))
  | handle : SameKind (.leaf (.handles .retire)) (.leaf (.handles .retire))

/-- C144: at most one free transaction of each kind of an account is ready. -/
def C144_full : Prop := ∀ (cfg : Whole.Config) (p : Pool) (log : List (Submission × Tx)), Reach cfg p log →
  ∀ (m1 q1 : Nat) (x1 : Wrapped.Signed) (t1 : Tx) (m2 q2 : Nat) (x2 : Wrapped.Signed) (t2 : Tx),
    (.signed m1 q1 x1, t1) ∈ log → (.signed m2 q2 x2, t2) ∈ log → t1 ∈ p.ready → t2 ∈ p.ready →
    x1.who = x2.who → SameKind x1.call x2.call → t1 = t2

theorem reach_log {cfg : Whole.Config} {p : Pool} {log : List (Submission × Tx)} (h : Reach cfg p log) :
    ∀ y ∈ log, ∃ s, check cfg s y.1 = some y.2 := by
  induction h with
  | empty => intro y hy; cases hy
  | add s x t _ hc ih =>
    intro y hy
    rcases List.mem_cons.1 hy with rfl | hy
    · exact ⟨s, hc⟩
    · exact ih y hy
  | leave _ _ ih => exact ih

theorem pairwise_all {α : Type} {R : α → α → Prop} (hs : ∀ a b, R a b → R b a) {l : List α} (h : l.Pairwise R) :
    ∀ a ∈ l, ∀ b ∈ l, a ≠ b → R a b := by
  induction h with
  | nil => intro a ha; cases ha
  | cons h1 _ ih =>
    intro a ha b hb hne
    rcases List.mem_cons.1 ha with rfl | ha'
    · rcases List.mem_cons.1 hb with rfl | hb'
      · exact absurd rfl hne
      · exact h1 b hb'
    · rcases List.mem_cons.1 hb with rfl | hb'
      · exact hs _ _ (h1 a ha')
      · exact ih a ha' b hb' hne

theorem apart_eq {r : List Tx} (h : Apart r) {t u : Tx} (ht : t ∈ r) (hu : u ∈ r) {g : Tag} (h1 : g ∈ t.provides)
    (h2 : g ∈ u.provides) : t = u := by
  by_contra hne
  have := pairwise_all (fun a b hab => by
    rw [← Bool.not_eq_true, clash_iff] at *
    exact fun ⟨g, h1, h2⟩ => hab ⟨g, h2, h1⟩) h t ht u hu hne
  rw [← Bool.not_eq_true, clash_iff] at this
  exact this ⟨g, h1, h2⟩

/-- C144 for all kinds but the retirement of handles. Missing: that one (`C144_full_false`). -/
theorem C144_one_partial (cfg : Whole.Config) (p : Pool) (log : List (Submission × Tx)) (h : Reach cfg p log)
    (m1 q1 : Nat) (x1 : Wrapped.Signed) (t1 : Tx) (m2 q2 : Nat) (x2 : Wrapped.Signed) (t2 : Tx)
    (h1 : (.signed m1 q1 x1, t1) ∈ log) (h2 : (.signed m2 q2 x2, t2) ∈ log) (hr1 : t1 ∈ p.ready) (hr2 : t2 ∈ p.ready)
    (hw : x1.who = x2.who) (hk : SameKind x1.call x2.call) (hh : x1.call ≠ .leaf (.handles .retire)) : t1 = t2 := by
  obtain ⟨s1, c1⟩ := reach_log h _ h1
  obtain ⟨s2, c2⟩ := reach_log h _ h2
  obtain ⟨a1, -, -, -, p1⟩ := check_tx c1
  obtain ⟨a2, -, -, -, p2⟩ := check_tx c2
  have : ∃ k, kindOf x1.call = some k ∧ kindOf x2.call = some k := by
    generalize x1.call = c, x2.call = c' at *
    cases hk with
    | handle => exact absurd rfl hh
    | _ => exact ⟨_, rfl, rfl⟩
  obtain ⟨k, k1, k2⟩ := this
  refine apart_eq (g := .free k t1.who) (reach_ok h).apart hr1 hr2 ?_ ?_
  · rw [p1]
    simp [Submission.kind, k1]
  · rw [p2]
    have e : t1.who = t2.who := by
      rw [a1, a2]
      exact hw
    simp [Submission.kind, k2, e]

/-- C144: and at most one transaction of an account with a number is ready, whatever it is. -/
theorem C144_numbers (cfg : Whole.Config) (p : Pool) (log : List (Submission × Tx)) (h : Reach cfg p log)
    (x1 x2 : Submission) (t1 t2 : Tx) (h1 : (x1, t1) ∈ log) (h2 : (x2, t2) ∈ log) (hr1 : t1 ∈ p.ready)
    (hr2 : t2 ∈ p.ready) (hw : x1.account = x2.account) (hn : x1.number = x2.number) : t1 = t2 := by
  obtain ⟨s1, c1⟩ := reach_log h _ h1
  obtain ⟨s2, c2⟩ := reach_log h _ h2
  obtain ⟨a1, n1, -, -, p1⟩ := check_tx c1
  obtain ⟨a2, n2, -, -, p2⟩ := check_tx c2
  refine apart_eq (g := .number t1.who t1.number) (reach_ok h).apart hr1 hr2 ?_ ?_
  · rw [p1]
    exact List.mem_cons_self ..
  · rw [p2]
    have e : t1.who = t2.who := by
      rw [a1, a2]
      exact hw
    have e' : t1.number = t2.number := by
      rw [n1, n2]
      exact hn
    rw [e, e']
    exact List.mem_cons_self ..

/-! ## C145: several transactions of an account -/

/-- Transactions are submitted one after the other, in the same state of the chain. -/
def submitAll (cfg : Whole.Config) (s : Wrapped.State) (p : Pool) (xs : List Submission) : Pool := xs.foldl (submit cfg s) p

/-- Transactions submitted one after the other to an empty pool: all wait, and ready are just those for which
transactions with all lower numbers have been submitted. -/
def Keeps (cfg : Whole.Config) (s : Wrapped.State) (xs : List Submission) : Prop :=
  ∀ x ∈ xs, ∀ t, check cfg s x = some t →
    (t ∈ (submitAll cfg s .empty xs).ready ∨ t ∈ (submitAll cfg s .empty xs).future) ∧
    (t ∈ (submitAll cfg s .empty xs).ready ↔
      ∀ n, s.nonces x.account ≤ n → n < x.number → ∃ y ∈ xs, y.account = x.account ∧ y.number = n)

/-- C145: valid transactions with different numbers do not get in each other's way, in whatever order they are submitted. -/
def C145_full : Prop := ∀ (cfg : Whole.Config) (s : Wrapped.State) (xs : List Submission),
  (∀ x ∈ xs, (check cfg s x).isSome = true) →
  xs.Pairwise (fun x y => ¬ (x.account = y.account ∧ x.number = y.number)) → Keeps cfg s xs

theorem submitAll_inv {cfg : Whole.Config} {s : Wrapped.State} {S : Tx → Prop}
    (hS : ∀ t u, S t → S u → t ≠ u → clash t u = false) : ∀ (xs : List Submission) (p : Pool),
    (∀ x ∈ xs, ∀ t, check cfg s x = some t → S t) → (∀ u, u ∈ p.ready ∨ u ∈ p.future → S u) →
    (p.ready ++ p.future).Nodup → Supported p → Ok p →
    (∀ u, u ∈ (submitAll cfg s p xs).ready ∨ u ∈ (submitAll cfg s p xs).future ↔
      (u ∈ p.ready ∨ u ∈ p.future) ∨ ∃ x ∈ xs, check cfg s x = some u) ∧
    ((submitAll cfg s p xs).ready ++ (submitAll cfg s p xs).future).Nodup ∧
    Supported (submitAll cfg s p xs) ∧ Ok (submitAll cfg s p xs)
  | [], _, _, _, hn, hp, ho => ⟨fun u => by simp [submitAll], hn, hp, ho⟩
  | x :: xs, p, hx, hm, hn, hp, ho => by
    have hx' : ∀ y ∈ xs, ∀ t, check cfg s y = some t → S t := fun y hy => hx y (List.mem_cons_of_mem _ hy)
    have hstep : submitAll cfg s p (x :: xs) = submitAll cfg s (submit cfg s p x) xs := rfl
    rw [hstep]
    cases hc : check cfg s x with
    | none =>
      have e : submit cfg s p x = p := by simp [submit, hc]
      rw [e]
      obtain ⟨i1, i2⟩ := submitAll_inv hS xs p hx' hm hn hp ho
      refine ⟨fun u => (i1 u).trans ?_, i2⟩
      simp [hc]
    | some t =>
      have e : submit cfg s p x = p.add t := by simp [submit, hc]
      rw [e]
      have hSt : S t := hx x (List.mem_cons_self ..) t hc
      obtain ⟨a1, a2, a3⟩ := add_apart hS hm hn hp hSt
      obtain ⟨i1, i2⟩ := submitAll_inv hS xs (p.add t) hx' (fun u hu => by
        rcases (a1 u).1 hu with h | rfl
        · exact hm u h
        · exact hSt) a2 a3 (add_ok ho (check_own hc))
      refine ⟨fun u => (i1 u).trans ?_, i2⟩
      rw [a1 u]
      simp only [List.mem_cons, exists_eq_or_imp, hc, Option.some.injEq]
      constructor
      · rintro ((h | h) | h)
        · exact .inl h
        · exact .inr (.inl h.symm)
        · exact .inr (.inr h)
      · rintro (h | h | h)
        · exact .inl (.inl h)
        · exact .inl (.inr h.symm)
        · exact .inr h

/-- The pool after such transactions: it has just these, each once, and none in the way of others. -/
theorem submitAll_apart {cfg : Whole.Config} {s : Wrapped.State} {xs : List Submission}
    (hn : xs.Pairwise (fun x y => ¬ (x.account = y.account ∧ x.number = y.number)))
    (hk : xs.Pairwise (fun x y => ∀ m1 q1 t1 m2 q2 t2, x = .signed m1 q1 t1 → y = .signed m2 q2 t2 → t1.who = t2.who →
      SameKind t1.call t2.call → t1.call = .leaf (.handles .retire))) :
    (∀ u, u ∈ (submitAll cfg s .empty xs).ready ∨ u ∈ (submitAll cfg s .empty xs).future ↔
      ∃ x ∈ xs, check cfg s x = some u) ∧
    ((submitAll cfg s .empty xs).ready ++ (submitAll cfg s .empty xs).future).Nodup ∧
    Supported (submitAll cfg s .empty xs) ∧ Ok (submitAll cfg s .empty xs) := by
  -- the transactions of the list
  let S : Tx → Prop := fun t => ∃ x ∈ xs, check cfg s x = some t
  have hkind : ∀ x y : Submission, (∀ m1 q1 t1 m2 q2 t2, x = .signed m1 q1 t1 → y = .signed m2 q2 t2 → t1.who = t2.who →
      SameKind t1.call t2.call → t1.call = .leaf (.handles .retire)) → x.account = y.account →
      ∀ k, x.kind = some k → y.kind = some k → False := by
    intro x y h ha k hx hy
    cases x with
    | passkey => cases hx
    | signed m1 q1 t1 =>
      cases y with
      | passkey => cases hy
      | signed m2 q2 t2 =>
        have h1 : kindOf t1.call = some k := hx
        have h2 : kindOf t2.call = some k := hy
        have hs : SameKind t1.call t2.call := by
          generalize t1.call = c, t2.call = c' at *
          unfold kindOf at h1 h2
          split at h1 <;> simp only [Option.some.injEq, reduceCtorEq] at h1 <;> subst h1 <;>
          · split at h2 <;> simp only [Option.some.injEq, reduceCtorEq] at h2
            constructor
        have := h m1 q1 t1 m2 q2 t2 rfl rfl ha hs
        rw [this] at h1
        cases h1
  have hS : ∀ t u, S t → S u → t ≠ u → clash t u = false := by
    rintro t u ⟨x, hx, cx⟩ ⟨y, hy, cy⟩ hne
    have hxy : x ≠ y := by
      rintro rfl
      rw [cx] at cy
      exact hne (Option.some.inj cy)
    have d1 := pairwise_all (fun a b h e => h ⟨e.1.symm, e.2.symm⟩) hn x hx y hy hxy
    have hk' : xs.Pairwise (fun x y => x.account = y.account → ∀ k, x.kind = some k → y.kind = some k → False) :=
      hk.imp (fun {a b} h ha k => hkind a b h ha k)
    have d2 := pairwise_all (fun a b h e k h1 h2 => h e.symm k h2 h1) hk' x hx y hy hxy
    obtain ⟨w1, n1, -, -, p1⟩ := check_tx cx
    obtain ⟨w2, n2, -, -, p2⟩ := check_tx cy
    rw [← Bool.not_eq_true, clash_iff]
    rintro ⟨g, g1, g2⟩
    rw [p1, List.mem_cons, Option.mem_toList, Option.map_eq_some_iff] at g1
    rw [p2, List.mem_cons, Option.mem_toList, Option.map_eq_some_iff] at g2
    rcases g1 with rfl | ⟨k, hk1, rfl⟩
    · rcases g2 with e | ⟨k, -, e⟩
      · simp only [Tag.number.injEq] at e
        exact d1 ⟨by rw [← w1, ← w2]; exact e.1, by rw [← n1, ← n2]; exact e.2⟩
      · cases e
    · rcases g2 with e | ⟨k', hk2, e⟩
      · cases e
      · simp only [Tag.free.injEq] at e
        exact d2 (by rw [← w1, ← w2]; exact e.2.symm) k hk1 (by rw [← e.1]; exact hk2)
  obtain ⟨i1, i2, i3, i4⟩ := submitAll_inv hS xs .empty (fun x hx t ht => ⟨x, hx, ht⟩)
    (fun u hu => by rcases hu with h | h <;> cases h) List.nodup_nil (fun l t r e => by simp [Pool.empty] at e) empty_ok
  refine ⟨fun u => ?_, i2, i3, i4⟩
  rw [i1 u]
  constructor
  · rintro ((h | h) | h)
    · cases h
    · cases h
    · exact h
  · exact .inr

/-- C145, also with several accounts, if no two of the transactions are free ones of the msa pallet of the same kind and
account. Missing: those (`C145_full_false`). -/
theorem C145_all_partial (cfg : Whole.Config) (s : Wrapped.State) (xs : List Submission)
    (hv : ∀ x ∈ xs, (check cfg s x).isSome = true)
    (hn : xs.Pairwise (fun x y => ¬ (x.account = y.account ∧ x.number = y.number)))
    (hk : xs.Pairwise (fun x y => ∀ m1 q1 t1 m2 q2 t2, x = .signed m1 q1 t1 → y = .signed m2 q2 t2 → t1.who = t2.who →
      SameKind t1.call t2.call → t1.call = .leaf (.handles .retire))) : Keeps cfg s xs := by
  -- the transactions of the list
  let S : Tx → Prop := fun t => ∃ x ∈ xs, check cfg s x = some t
  obtain ⟨mem, -, i2, i3⟩ := submitAll_apart (cfg := cfg) (s := s) hn hk
  have find : ∀ u, S u → ∃ x ∈ xs, check cfg s x = some u := fun u h => h
  -- a transaction that provides the tag of a number has that number
  have owner : ∀ u, S u → ∀ w n, Tag.number w n ∈ u.provides → u.who = w ∧ u.number = n := by
    rintro u ⟨x, -, cx⟩ w n hg
    obtain ⟨-, -, -, -, p1⟩ := check_tx cx
    rw [p1, List.mem_cons, Option.mem_toList, Option.map_eq_some_iff] at hg
    rcases hg with e | ⟨k, -, e⟩
    · simp only [Tag.number.injEq] at e
      exact ⟨e.1.symm, e.2.symm⟩
    · cases e
  have needs : ∀ u, S u → s.nonces u.who < u.number → Tag.number u.who (u.number - 1) ∈ u.requires := by
    rintro u ⟨x, -, cx⟩ h
    obtain ⟨-, -, -, r1, -⟩ := check_tx cx
    rw [r1, before, if_pos h]
    exact List.mem_singleton.2 rfl
  have gives : ∀ u, S u → Tag.number u.who u.number ∈ u.provides := by
    rintro u ⟨x, -, cx⟩
    obtain ⟨-, -, -, -, p1⟩ := check_tx cx
    rw [p1]
    exact List.mem_cons_self ..
  have low : ∀ u, S u → s.nonces u.who ≤ u.number := by
    rintro u ⟨x, -, cx⟩
    exact (check_tx cx).2.2.1
  -- ready transactions have all lower numbers before them
  have down : ∀ k u, u ∈ (submitAll cfg s .empty xs).ready → u.number = s.nonces u.who + k →
      ∀ n, s.nonces u.who ≤ n → n < u.number → ∃ v, S v ∧ v.who = u.who ∧ v.number = n := by
    intro k
    induction k with
    | zero => intro u _ hk n h1 h2; omega
    | succ k ih =>
      intro u hu hk n h1 h2
      have hSu := (mem u).1 (.inl hu)
      obtain ⟨v, hv, hg⟩ := satisfied_iff.1 (i2.has u hu) _ (needs u hSu (by omega))
      have hSv := (mem v).1 (.inl hv)
      obtain ⟨e1, e2⟩ := owner v hSv _ _ hg
      by_cases e : n = u.number - 1
      · exact ⟨v, hSv, e1, by omega⟩
      · obtain ⟨z, z1, z2, z3⟩ := ih v hv (by rw [e1]; omega) n (by rw [e1]; exact h1) (by omega)
        exact ⟨z, z1, by rw [z2, e1], z3⟩
  -- and a transaction that has them is ready
  have up : ∀ k u, S u → u.number = s.nonces u.who + k →
      (∀ n, s.nonces u.who ≤ n → n < u.number → ∃ v, S v ∧ v.who = u.who ∧ v.number = n) →
      u ∈ (submitAll cfg s .empty xs).ready := by
    intro k
    induction k with
    | zero =>
      intro u hSu hk _
      rcases (mem u).2 hSu with h | h
      · exact h
      · exfalso
        have := i3.settled u h
        rw [← Bool.not_eq_true, satisfied_iff] at this
        refine this (fun g hg => ?_)
        obtain ⟨x, -, cx⟩ := hSu
        obtain ⟨-, -, -, r1, -⟩ := check_tx cx
        rw [r1, before, if_neg (by omega)] at hg
        cases hg
    | succ k ih =>
      intro u hSu hk hall
      rcases (mem u).2 hSu with h | h
      · exact h
      · exfalso
        have := i3.settled u h
        rw [← Bool.not_eq_true, satisfied_iff] at this
        refine this (fun g hg => ?_)
        obtain ⟨v, v1, v2, v3⟩ := hall (u.number - 1) (by omega) (by omega)
        have hv := ih v v1 (by rw [v2]; omega) (fun n h1 h2 => by
          obtain ⟨z, z1, z2, z3⟩ := hall n (by rw [← v2]; exact h1) (by omega)
          exact ⟨z, z1, by rw [z2, v2], z3⟩)
        refine ⟨v, hv, ?_⟩
        obtain ⟨x, -, cx⟩ := hSu
        obtain ⟨-, -, -, r1, -⟩ := check_tx cx
        rw [r1, before, if_pos (by omega), List.mem_singleton] at hg
        rw [hg, ← v2, ← v3]
        exact gives v v1
  intro x hx t ht
  have hSt : S t := ⟨x, hx, ht⟩
  obtain ⟨w, n, -⟩ := check_tx ht
  refine ⟨(mem t).2 hSt, fun h m h1 h2 => ?_, fun h => ?_⟩
  · rw [← w] at h1
    rw [← n] at h2
    obtain ⟨v, ⟨y, hy, cy⟩, v2, v3⟩ := down _ t h (Nat.add_sub_cancel' (low t hSt)).symm m h1 h2
    obtain ⟨w', n', -⟩ := check_tx cy
    exact ⟨y, hy, by rw [← w', v2, w], by rw [← n', v3]⟩
  · refine up _ t hSt (Nat.add_sub_cancel' (low t hSt)).symm (fun m h1 h2 => ?_)
    rw [w] at h1
    rw [n] at h2
    obtain ⟨y, hy, y1, y2⟩ := h m h1 h2
    obtain ⟨v, cy⟩ := Option.isSome_iff_exists.1 (hv y hy)
    obtain ⟨w', n', -⟩ := check_tx cy
    exact ⟨v, ⟨y, hy, cy⟩, by rw [w', y1, w], by rw [n', y2]⟩

/-! ## Handles can be retired again and again, as far as the pool can see -/

theorem reach_submitAll {cfg : Whole.Config} {s : Wrapped.State} : ∀ (xs : List Submission) {p : Pool}
    {log : List (Submission × Tx)}, Reach cfg p log → ∃ log', Reach cfg (submitAll cfg s p xs) log' ∧
      (∀ y ∈ log, y ∈ log') ∧ ∀ x ∈ xs, ∀ t, check cfg s x = some t → (x, t) ∈ log'
  | [], _, log, h => ⟨log, h, fun _ hy => hy, fun _ hx => by cases hx⟩
  | x :: xs, p, log, h => by
    cases hc : check cfg s x with
    | none =>
      have e : submitAll cfg s p (x :: xs) = submitAll cfg s p xs := by simp [submitAll, submit, hc]
      rw [e]
      obtain ⟨log', h1, h2, h3⟩ := reach_submitAll (s := s) xs h
      refine ⟨log', h1, h2, fun y hy t ht => ?_⟩
      rcases List.mem_cons.1 hy with rfl | hy
      · rw [hc] at ht
        cases ht
      · exact h3 y hy t ht
    | some t =>
      have e : submitAll cfg s p (x :: xs) = submitAll cfg s (p.add t) xs := by simp [submitAll, submit, hc]
      rw [e]
      obtain ⟨log', h1, h2, h3⟩ := reach_submitAll (s := s) xs (h.add s x t hc)
      refine ⟨log', h1, fun y hy => h2 y (List.mem_cons_of_mem _ hy), fun y hy u hu => ?_⟩
      rcases List.mem_cons.1 hy with rfl | hy
      · rw [hc] at hu
        rw [← Option.some.inj hu]
        exact h2 _ (List.mem_cons_self ..)
      · exact h3 y hy u hu

/-- The opposite of C144 for handles: whoever can retire a handle, also with a key that has no tokens, can have any number
of free transactions ready. -/
theorem C144_handles (cfg : Whole.Config) (s : Wrapped.State) (t : Wrapped.Signed)
    (hc : t.call = .leaf (.handles .retire)) (hv : (check cfg s (.signed 0 0 t)).isSome = true) (k : Nat) :
    ∃ p log, Reach cfg p log ∧ ∃ l : List Tx, l.Nodup ∧ l.length = k ∧ ∀ u ∈ l, u ∈ p.ready ∧
      ∃ m q x, (.signed m q x, u) ∈ log ∧ x.who = t.who ∧ x.call = .leaf (.handles .retire) := by
  let x : Nat → Submission := fun i => .signed i 0 { t with nonce := s.nonces t.who + i }
  let tx : Nat → Tx := fun i =>
    ⟨i, t.who, s.nonces t.who + i, before s t.who (s.nonces t.who + i), [.number t.who (s.nonces t.who + i)], 0⟩
  have hval : ∀ i, check cfg s (x i) = some (tx i) := by
    intro i
    simp only [check, validate] at hv
    split at hv
    · cases hp : Wrapped.pay cfg.wrapped s.world.tokens t with
      | none => simp [hp] at hv
      | some tok =>
        simp only [hp, Option.bind_eq_bind, Option.bind_some] at hv
        split at hv
        · rename_i he
          have hp' : Wrapped.pay cfg.wrapped s.world.tokens { t with nonce := s.nonces t.who + i } = some tok := hp
          simp only [x, tx, check, validate, hp', Option.bind_eq_bind, Option.bind_some, he, if_true, Nat.le_add_right]
          simp [hc, kindOf]
        · cases hv
    · cases hv
  let xs := (List.range k).map x
  have hmem : ∀ {y}, y ∈ xs ↔ ∃ i < k, x i = y := by
    intro y
    simp [xs]
  have hkeep := C145_all_partial cfg s xs
    (fun y hy => by obtain ⟨i, -, rfl⟩ := hmem.1 hy; rw [hval i]; rfl)
    (by
      refine List.pairwise_map.2 (List.Pairwise.imp ?_ (List.nodup_iff_pairwise_ne.1 List.nodup_range))
      intro i j hne e
      have : s.nonces t.who + i = s.nonces t.who + j := e.2
      omega)
    (by
      refine List.pairwise_map.2 (List.Pairwise.imp ?_ (List.nodup_iff_pairwise_ne.1 List.nodup_range))
      intro i j _ m1 q1 t1 m2 q2 t2 e1 _ _ _
      simp only [x, Submission.signed.injEq] at e1
      rw [← e1.2.2]
      exact hc)
  obtain ⟨log, h1, -, h3⟩ := reach_submitAll (s := s) xs (Reach.empty (cfg := cfg))
  refine ⟨_, log, h1, (List.range k).map tx, ?_, by simp, ?_⟩
  · refine List.Nodup.map (fun i j e => ?_) List.nodup_range
    exact congrArg Tx.mark e
  · intro u hu
    obtain ⟨i, hi, rfl⟩ := List.mem_map.1 hu
    have hx : x i ∈ xs := hmem.2 ⟨i, List.mem_range.1 hi, rfl⟩
    refine ⟨((hkeep (x i) hx (tx i) (hval i)).2).2 (fun n n1 n2 => ?_), i, 0, _, h3 (x i) hx (tx i) (hval i), rfl, hc⟩
    have n1' : s.nonces t.who ≤ n := n1
    have n2' : n < s.nonces t.who + i := n2
    refine ⟨x (n - s.nonces t.who), hmem.2 ⟨n - s.nonces t.who, ?_, rfl⟩, rfl, ?_⟩
    · have := List.mem_range.1 hi
      omega
    · show s.nonces t.who + (n - s.nonces t.who) = n
      omega

/-! ## A concrete chain -/

/-- The larger example of the chain; then key 30 creates account 3 and delegates to provider 1, and 28 blocks go by, after
which account 2 can retire its handle. -/
def exChain : Chain.State := Chain.run Chain.exCfg (.init 1024) (Chain.exHist ++
  [.submit Chain.exBal 30 (.msa .create), .submit Chain.exBal 10 (.msa (.grantDelegation 30 30 ⟨1, [1], 50⟩))] ++
  List.replicate 28 .newBlock)

/-- With some tokens. -/
def exState : Wrapped.State :=
  ⟨⟨⟨exChain, Wrapped.exLedger, ∅, 0⟩, fun _ => [], fun _ => [], fun _ _ => none, 0, []⟩, fun _ => 0⟩

/-- A transaction of a key. -/
def exTx (who : AccountId) (mark priority nonce : Nat) (c : Wrapped.Call) : Submission :=
  .signed mark priority ⟨who, nonce, c, 100, 0, 0, Wallet.exEnv⟩

/-- Provider 1 revokes the delegation of an account. -/
def exRevoke (mark priority nonce : Nat) (m : MsaId) : Submission :=
  exTx 10 mark priority nonce (.leaf (.msa (.revokeDelegationByProvider m)))

/-- What the pool gets. -/
def exRevoked (mark priority nonce : Nat) : Tx :=
  ⟨mark, 10, nonce, if nonce = 0 then [] else [.number 10 (nonce - 1)], [.number 10 nonce, .free .provider 10], priority⟩

/-- C145 fails: provider 1 submits the revocations of two delegations with its numbers 0 and 1. Both are valid, but the
second is refused, having the same tag and no higher priority. -/
theorem C145_full_false : ¬ C145_full := by
  intro h
  have c1 : check Whole.exCfg exState (exRevoke 1 5 0 2) = some (exRevoked 1 5 0) := by decide +kernel
  have c2 : check Whole.exCfg exState (exRevoke 2 5 1 3) = some (exRevoked 2 5 1) := by decide +kernel
  have := h Whole.exCfg exState [exRevoke 1 5 0 2, exRevoke 2 5 1 3]
    (by intro x hx; rcases List.mem_cons.1 hx with rfl | hx
        · rw [c1]; rfl
        · rw [List.mem_singleton.1 hx, c2]; rfl)
    (by refine List.pairwise_pair.2 (fun e => ?_); exact absurd e.2 (by decide))
    (exRevoke 2 5 1 3) (by simp) _ c2
  have e : submitAll Whole.exCfg exState .empty [exRevoke 1 5 0 2, exRevoke 2 5 1 3] = ⟨[exRevoked 1 5 0], []⟩ := by
    simp only [submitAll, List.foldl_cons, List.foldl_nil, submit, c1, c2]
    decide +kernel
  rw [e] at this
  rcases this.1 with h | h
  · exact absurd h (by decide)
  · cases h

/-- With a higher priority the second displaces the first, and then cannot be put in a block before another transaction
with number 0 comes. The other way round, what waited is dropped. -/
example : (Pool.empty.add (exRevoked 1 5 0)).add (exRevoked 2 6 1) = ⟨[exRevoked 2 6 1], []⟩ ∧
    (Pool.empty.add (exRevoked 2 5 1)).add (exRevoked 1 5 0) = ⟨[exRevoked 1 5 0], []⟩ ∧
    (Pool.empty.add (exRevoked 2 6 1)).add (exRevoked 1 5 0) = ⟨[], []⟩ := by decide +kernel

/-- Key 20 retires its handle, which is free; key 20 has no tokens here. -/
def exRetire (mark nonce : Nat) : Submission := exTx 20 mark 0 nonce (.leaf (.handles .retire))

/-- C144 fails: a handle is to be retired twice. -/
theorem C144_full_false : ¬ C144_full := by
  intro h
  obtain ⟨p, log, h1, l, h2, h3, h4⟩ := C144_handles Whole.exCfg exState ⟨20, 0, .leaf (.handles .retire), 100, 0, 0, Wallet.exEnv⟩
    rfl (by decide +kernel) 2
  match l, h3 with
  | [a, b], _ =>
    obtain ⟨ra, ma, qa, xa, la, wa, ca⟩ := h4 a (by simp)
    obtain ⟨rb, mb, qb, xb, lb, wb, cb⟩ := h4 b (by simp)
    have := h Whole.exCfg p log h1 ma qa xa a mb qb xb b la lb ra rb (by rw [wa, wb]) (by rw [ca, cb]; exact .handle)
    subst this
    simp at h2

/-- Key 30 pays somebody, in the state in which it has used its passkey once. -/
def exPayment : Submission := .signed 1 5 ⟨30, 1, .transfer false 40 7, 100, 6, 2, Wallet.exEnv⟩
/-- What the pool gets. -/
def exPaid : Tx := ⟨1, 30, 1, [], [.number 30 1], 5⟩
/-- Somebody else uses the public key and the signature of key 30 on it, without the passkey. -/
def exForged : Submission := .passkey 2 6 10 ⟨[1], [], [], [], 30, 1, 0, .transfer false 20 50⟩
/-- What the pool gets. -/
def exForgedTx : Tx := ⟨2, 30, 1, [], [.number 30 1], 6⟩

/-- C143 fails: the payment that waits is displaced by a passkey transaction that no passkey signed. -/
theorem C143_full_false : ¬ C143_full := by
  intro h
  have c1 : check Whole.exCfg (Whole.run Whole.exCfg (Wrapped.genesis 1024 Tokens.exLedger) Whole.exUsed) exPayment =
      some exPaid := by decide +kernel
  have c2 : check Whole.exCfg (Whole.run Whole.exCfg (Wrapped.genesis 1024 Tokens.exLedger) Whole.exUsed) exForged =
      some exForgedTx := by decide +kernel
  have := (h Whole.exCfg _ _ (Reach.empty.add _ exPayment exPaid c1)
    (Whole.run Whole.exCfg (Wrapped.genesis 1024 Tokens.exLedger) Whole.exUsed) exForged exPaid
    (by intro hs; exact absurd hs.2.2 (by decide))).1 (by decide)
  unfold submit at this
  rw [c2] at this
  exact absurd this (by decide)

/-- Hypotheses of `C143_own_partial` and `C144_one_partial` met: the payment of key 30 and a revocation of key 10 wait
together; a second revocation changes nothing about the payment, and only one revocation stays. -/
example :
    check Whole.exCfg exState (exTx 30 1 5 0 (.transfer false 40 7)) = some ⟨1, 30, 0, [], [.number 30 0], 5⟩ ∧
    check Whole.exCfg exState (exRevoke 2 5 0 2) = some (exRevoked 2 5 0) ∧
    check Whole.exCfg exState (exRevoke 3 9 0 3) = some (exRevoked 3 9 0) ∧
    ((Pool.empty.add ⟨1, 30, 0, [], [.number 30 0], 5⟩).add (exRevoked 2 5 0)).add (exRevoked 3 9 0) =
      ⟨[⟨1, 30, 0, [], [.number 30 0], 5⟩, exRevoked 3 9 0], []⟩ := by decide +kernel

/-- Hypotheses of `C145_all_partial` met: four transactions of two keys, in an order in which one has to wait for another
that comes later. Number 3 of key 20 has to wait for number 2. -/
example :
    let xs := [exTx 30 1 5 1 (.transfer false 40 7), exRevoke 2 5 0 2,
      exTx 30 4 1 0 (.transfer false 40 7), exTx 20 5 0 3 (.leaf (.handles .retire))]
    (xs.map (fun x => (check Whole.exCfg exState x).isSome)) = [true, true, true, true] ∧
    (submitAll Whole.exCfg exState .empty xs).ready.map Tx.mark = [2, 4, 1] ∧
    (submitAll Whole.exCfg exState .empty xs).future.map Tx.mark = [5] := by decide +kernel

end Verif.Pool
