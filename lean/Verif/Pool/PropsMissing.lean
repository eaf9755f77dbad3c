import Verif.Pool.Props
import Verif.NonceRpc.Props
/-!
# The report of missing numbers and the pool

C148: the query for missing nonces (`NonceRpc`) asked of the pool (`Pool`) after transactions have been submitted.
-/

namespace Verif.Pool

/-! ## Specification -/

/-- What the query sees of a transaction of the pool. -/
def Tx.view (account : AccountId → Bytes) (t : Tx) : NonceRpc.PoolTx := ⟨t.provides.map (Tag.bytes account)⟩

/-- The pool lists its ready transactions in some order, depending on priorities, but each after those that it requires. -/
def Listed (p : Pool) (order : List Tx) : Prop :=
  order.Perm p.ready ∧ ∀ l t r, order = l ++ t :: r → satisfied l t = true

/-- What the node answers about an account. -/
def report (account : AccountId → Bytes) (s : Wrapped.State) (p : Pool) (order : List Tx) (w : AccountId) : List Nat :=
  NonceRpc.getMissingNonces (account w) (s.nonces w) (order.map (Tx.view account)) (p.future.map (Tx.view account))

/-- Accounts have 32 bytes, and those of account `w` are its own among the accounts used. -/
def Accounts (account : AccountId → Bytes) (w : AccountId) (xs : List Submission) : Prop :=
  (∀ w, (account w).length = 32) ∧ ∀ x ∈ xs, account x.account = account w → x.account = w

/-- Valid transactions with different numbers; numbers have 32 bits, and the last one cannot be used. -/
structure Proper (cfg : Whole.Config) (s : Wrapped.State) (xs : List Submission) : Prop where
  valid : ∀ x ∈ xs, (check cfg s x).isSome = true
  different : xs.Pairwise (fun x y => ¬ (x.account = y.account ∧ x.number = y.number))
  small : ∀ x ∈ xs, x.number + 1 < 2 ^ 32
  nonces : ∀ w, s.nonces w < 2 ^ 32

/-- A number is missing: a later one of the account was submitted, this one not. -/
def Gap (s : Wrapped.State) (xs : List Submission) (w : AccountId) (k : Nat) : Prop :=
  s.nonces w ≤ k ∧ (∀ x ∈ xs, ¬ (x.account = w ∧ x.number = k)) ∧ ∃ x ∈ xs, x.account = w ∧ k < x.number

/-- An answer is exact: ascending, all missing numbers and no others, or the thousand lowest. -/
def Exact (gap : Nat → Prop) (r : List Nat) : Prop :=
  r.Pairwise (· < ·) ∧ (∀ k ∈ r, gap k) ∧ r.length ≤ 1000 ∧ ∀ k, gap k → k ∈ r ∨ (r.length = 1000 ∧ ∀ j ∈ r, j < k)

/-- After what is missing has been submitted all transactions of the account are ready, and nothing is missing. -/
def Closed (cfg : Whole.Config) (account : AccountId → Bytes) (s : Wrapped.State) (w : AccountId)
    (xs : List Submission) : Prop :=
  (∀ x ∈ xs, x.account = w → ∀ t, check cfg s x = some t → t ∈ (submitAll cfg s .empty xs).ready) ∧
  ∀ order, Listed (submitAll cfg s .empty xs) order → report account s (submitAll cfg s .empty xs) order w = []

/-- `ys` are transactions with the numbers reported, and perhaps others of other accounts. -/
structure Fills (r : List Nat) (w : AccountId) (ys : List Submission) : Prop where
  all : ∀ n ∈ r, ∃ y ∈ ys, y.account = w ∧ y.number = n
  only : ∀ y ∈ ys, y.account = w → y.number ∈ r

/-- C148 in full. -/
def C148_full : Prop :=
  ∀ (cfg : Whole.Config) (account : AccountId → Bytes) (s : Wrapped.State) (w : AccountId) (xs : List Submission),
    Accounts account w xs → Proper cfg s xs → ∀ order, Listed (submitAll cfg s .empty xs) order →
    Exact (Gap s xs w) (report account s (submitAll cfg s .empty xs) order w) ∧
    ∀ ys, Accounts account w (xs ++ ys) → Proper cfg s (xs ++ ys) → (report account s (submitAll cfg s .empty xs) order w).length < 1000 →
      Fills (report account s (submitAll cfg s .empty xs) order w) w ys → Closed cfg account s w (xs ++ ys)

/-- No two free transactions of the msa pallet of the same kind and account. -/
def OneOfAKind (xs : List Submission) : Prop :=
  xs.Pairwise (fun x y => ∀ m1 q1 t1 m2 q2 t2, x = .signed m1 q1 t1 → y = .signed m2 q2 t2 → t1.who = t2.who →
    SameKind t1.call t2.call → t1.call = .leaf (.handles .retire))

/-! ## Lemmas -/

/-- The same transaction for `NonceRpc`. -/
def Tx.plain (account : AccountId → Bytes) (t : Tx) : NonceRpc.Tx :=
  ⟨account t.who, t.number, t.provides.tail.map (Tag.bytes account)⟩

/-- The numbers of an account in a list. -/
def numbers (w : AccountId) (l : List Tx) : List Nat := (l.filter (fun t => decide (t.who = w))).map Tx.number

theorem noncesOf_plain {account : AccountId → Bytes} (w : AccountId) (l : List Tx)
    (hi : ∀ t ∈ l, account t.who = account w → t.who = w) : NonceRpc.noncesOf (account w) (l.map (Tx.plain account)) = numbers w l := by
  unfold NonceRpc.noncesOf numbers
  rw [List.filter_map, List.map_map]
  have : l.filter ((fun t : NonceRpc.Tx => decide (t.sender = account w)) ∘ Tx.plain account) =
      l.filter (fun t : Tx => decide (t.who = w)) := by
    refine List.filter_congr (fun t ht => ?_)
    exact decide_eq_decide.2 ⟨hi t ht, fun (h : t.who = w) => congrArg account h⟩
  rw [this]
  rfl

theorem mem_numbers {w : AccountId} {l : List Tx} {n : Nat} : n ∈ numbers w l ↔ ∃ t ∈ l, t.who = w ∧ t.number = n := by
  simp only [numbers, List.mem_map, List.mem_filter, decide_eq_true_eq]
  exact ⟨fun ⟨t, ⟨a, b⟩, c⟩ => ⟨t, a, b, c⟩, fun ⟨t, a, b, c⟩ => ⟨t, ⟨a, b⟩, c⟩⟩

theorem view_plain {account : AccountId → Bytes} {t : Tx} {l : List Tag}
    (h : t.provides = .number t.who t.number :: l) : (t.plain account).toPool = t.view account := by
  simp only [Tx.plain, NonceRpc.Tx.toPool, Tx.view, h]
  rfl

theorem numbers_snoc (w : AccountId) (l : List Tx) (t : Tx) :
    numbers w (l ++ [t]) = numbers w l ++ if t.who = w then [t.number] else [] := by
  simp only [numbers, List.filter_append, List.map_append]
  by_cases h : t.who = w <;> simp [h]

/-- In a list in which each comes after what it requires, the numbers of an account are consecutive. -/
theorem numbers_range {w : AccountId} {lo : Nat} (l : List Tx)
    (h : ∀ a t b, l = a ++ t :: b → t.who = w → lo < t.number → t.number - 1 ∈ numbers w a)
    (hl : ∀ t ∈ l, t.who = w → lo ≤ t.number) (hn : (numbers w l).Nodup) :
    numbers w l = List.range' lo (numbers w l).length := by
  induction l using List.reverseRecOn with
  | nil => rfl
  | append_singleton l t ih =>
    rw [numbers_snoc] at hn ⊢
    by_cases hw : t.who = w
    · simp only [if_pos hw] at hn ⊢
      have hi := ih (fun a u b e => h a u (b ++ [t]) (by rw [e]; simp))
        (fun u hu => hl u (List.mem_append_left _ hu)) (List.nodup_append.1 hn).1
      have h1 : t.number ∉ numbers w l := fun hm => by
        have := (List.nodup_append.1 hn).2.2 _ hm _ (List.mem_singleton.2 rfl)
        exact this rfl
      have h2 := hl t (by simp) hw
      have h3 : t.number = lo + (numbers w l).length := by
        rw [hi, List.mem_range'_1] at h1
        by_cases e : lo < t.number
        · have := h l t [] rfl hw e
          rw [hi, List.mem_range'_1] at this
          omega
        · omega
      rw [List.length_append, List.length_singleton, ← List.range'_append_1, ← hi, h3]
      rfl
    · simp only [if_neg hw, List.append_nil] at hn ⊢
      exact ih (fun a u b e => h a u (b ++ [t]) (by rw [e]; simp)) (fun u hu => hl u (List.mem_append_left _ hu)) hn

/-- The answer, for transactions that do not get in each other's way. -/
theorem report_exact {cfg : Whole.Config} {account : AccountId → Bytes} {s : Wrapped.State} {w : AccountId}
    {xs : List Submission} (ha : Accounts account w xs) (hp : Proper cfg s xs) (hk : OneOfAKind xs) {order : List Tx}
    (ho : Listed (submitAll cfg s .empty xs) order) :
    Exact (Gap s xs w) (report account s (submitAll cfg s .empty xs) order w) := by
  obtain ⟨mem, nodup, -, -⟩ := submitAll_apart (cfg := cfg) (s := s) hp.different hk
  obtain ⟨hperm, hreq⟩ := ho
  generalize submitAll cfg s .empty xs = p at *
  -- facts about single transactions
  have tx : ∀ u, u ∈ order ∨ u ∈ p.future → ∃ x ∈ xs, check cfg s x = some u := fun u hu =>
    (mem u).1 (hu.imp_left (fun h => hperm.mem_iff.1 h))
  have same : ∀ t u, t ∈ order ∨ t ∈ p.future → u ∈ order ∨ u ∈ p.future → t.who = u.who → t.number = u.number → t = u := by
    intro t u ht hu e1 e2
    obtain ⟨x, hx, cx⟩ := tx t ht
    obtain ⟨y, hy, cy⟩ := tx u hu
    obtain ⟨w1, n1, -⟩ := check_tx cx
    obtain ⟨w2, n2, -⟩ := check_tx cy
    by_cases e : x = y
    · subst e
      rw [cx] at cy
      exact Option.some.inj cy
    · exact absurd ⟨by rw [← w1, ← w2, e1], by rw [← n1, ← n2, e2]⟩
        (pairwise_all (fun a b h e => h ⟨e.1.symm, e.2.symm⟩) hp.different x hx y hy e)
  have low : ∀ t, t ∈ order ∨ t ∈ p.future → s.nonces t.who ≤ t.number := fun t ht => by
    obtain ⟨x, hx, cx⟩ := tx t ht
    exact (check_tx cx).2.2.1
  have small : ∀ t, t ∈ order ∨ t ∈ p.future → t.number + 1 < 2 ^ 32 := fun t ht => by
    obtain ⟨x, hx, cx⟩ := tx t ht
    rw [(check_tx cx).2.1]
    exact hp.small x hx
  have prov : ∀ t, t ∈ order ∨ t ∈ p.future → ∃ l, t.provides = .number t.who t.number :: l := fun t ht => by
    obtain ⟨x, hx, cx⟩ := tx t ht
    exact ⟨_, (check_tx cx).2.2.2.2⟩
  have own : ∀ t, t ∈ order ∨ t ∈ p.future → account t.who = account w → t.who = w := fun t ht => by
    obtain ⟨x, hx, cx⟩ := tx t ht
    rw [(check_tx cx).1]
    exact ha.2 x hx
  have pl1 := noncesOf_plain w order (fun t ht => own t (.inl ht))
  have pl2 := noncesOf_plain w p.future (fun t ht => own t (.inr ht))
  obtain ⟨nd1, nd2, nd3⟩ := List.nodup_append.1 nodup
  have ndo : (numbers w order).Nodup := by
    refine List.Nodup.map_on (fun t ht u hu e => ?_) ((hperm.nodup_iff.2 nd1).filter _)
    simp only [List.mem_filter, decide_eq_true_eq] at ht hu
    exact same t u (.inl ht.1) (.inl hu.1) (ht.2.trans hu.2.symm) e
  have ndf : (numbers w p.future).Nodup := by
    refine List.Nodup.map_on (fun t ht u hu e => ?_) (nd2.filter _)
    simp only [List.mem_filter, decide_eq_true_eq] at ht hu
    exact same t u (.inr ht.1) (.inr hu.1) (ht.2.trans hu.2.symm) e
  -- the ready ones have consecutive numbers
  have range := numbers_range (w := w) (lo := s.nonces w) order (fun a t b e hw hlt => by
    have ht : t ∈ order := by rw [e]; simp
    obtain ⟨x, hx, cx⟩ := tx t (.inl ht)
    obtain ⟨-, -, -, r1, -⟩ := check_tx cx
    have hs := satisfied_iff.1 (hreq a t b e) (.number t.who (t.number - 1)) (by
      rw [r1, before, if_pos (by rw [hw]; exact hlt)]
      exact List.mem_singleton.2 rfl)
    obtain ⟨v, hv, hg⟩ := hs
    have hvo : v ∈ order := by rw [e]; exact List.mem_append_left _ hv
    obtain ⟨y, hy, cy⟩ := tx v (.inl hvo)
    obtain ⟨-, -, -, -, p1⟩ := check_tx cy
    rw [p1, List.mem_cons, Option.mem_toList, Option.map_eq_some_iff] at hg
    rcases hg with e | ⟨k, -, e⟩
    · simp only [Tag.number.injEq] at e
      exact mem_numbers.2 ⟨v, hv, by rw [← e.1, hw], e.2.symm⟩
    · cases e) (fun t ht hw => hw ▸ low t (.inl ht)) ndo
  generalize hnext : s.nonces w + (numbers w order).length = next at *
  have bound : next < 2 ^ 32 := by
    by_cases e : (numbers w order).length = 0
    · have := hp.nonces w
      omega
    · have : next - 1 ∈ numbers w order := by
        rw [range, List.mem_range'_1]
        omega
      obtain ⟨t, ht, -, h⟩ := mem_numbers.1 this
      have := small t (.inl ht)
      omega
  have ready : ∀ n, n ∈ numbers w order ↔ s.nonces w ≤ n ∧ n < next := by
    intro n
    rw [range, List.mem_range'_1, hnext]
  have future : ∀ n ∈ numbers w p.future, next ≤ n := by
    intro n hn
    obtain ⟨u, hu, hw, rfl⟩ := mem_numbers.1 hn
    by_contra hlt
    obtain ⟨v, hv, e1, e2⟩ := mem_numbers.1 ((ready u.number).2 ⟨hw ▸ low u (.inr hu), by omega⟩)
    have := same v u (.inl hv) (.inr hu) (e1.trans hw.symm) e2
    subst this
    exact nd3 v (hperm.mem_iff.1 hv) v hu rfl
  -- as `NonceRpc` sees it
  have ok : NonceRpc.PoolOk (account w) (s.nonces w) next (order.map (Tx.plain account)) (p.future.map (Tx.plain account)) := by
    refine ⟨ha.1 w, ?_, bound, ⟨[], by simp, ?_⟩, by omega, ?_⟩
    · rintro t (h | h)
      · obtain ⟨u, hu, rfl⟩ := List.mem_map.1 h
        exact ⟨ha.1 _, by have := small u (.inl hu); simp only [Tx.plain]; omega⟩
      · obtain ⟨u, hu, rfl⟩ := List.mem_map.1 h
        exact ⟨ha.1 _, by have := small u (.inr hu); simp only [Tx.plain]; omega⟩
    · rw [pl1, List.nil_append, range, ← hnext, Nat.add_sub_cancel_left]
    · rw [pl2]
      exact future
  have main := NonceRpc.C82_report_exact_partial _ _ _ _ _ ok (by rw [pl2]; exact ndf)
  rw [List.map_map, List.map_map] at main
  have v1 : order.map (NonceRpc.Tx.toPool ∘ Tx.plain account) = order.map (Tx.view account) :=
    List.map_congr_left (fun t ht => by obtain ⟨l, hl⟩ := prov t (.inl ht); exact view_plain hl)
  have v2 : p.future.map (NonceRpc.Tx.toPool ∘ Tx.plain account) = p.future.map (Tx.view account) :=
    List.map_congr_left (fun t ht => by obtain ⟨l, hl⟩ := prov t (.inr ht); exact view_plain hl)
  rw [v1, v2] at main
  have gap : ∀ k, NonceRpc.Missing (account w) next (p.future.map (Tx.plain account)) k ↔ Gap s xs w k := by
    intro k
    simp only [NonceRpc.Missing, pl2]
    constructor
    · rintro ⟨h1, h2, f, h3, h4⟩
      refine ⟨by omega, ?_, ?_⟩
      · rintro x hx ⟨e1, e2⟩
        obtain ⟨t, ct⟩ := Option.isSome_iff_exists.1 (hp.valid x hx)
        obtain ⟨w1, n1, -⟩ := check_tx ct
        rcases (mem t).2 ⟨x, hx, ct⟩ with h | h
        · have := (ready k).1 (mem_numbers.2 ⟨t, hperm.mem_iff.2 h, by rw [w1, e1], by rw [n1, e2]⟩)
          omega
        · exact h2 (mem_numbers.2 ⟨t, h, by rw [w1, e1], by rw [n1, e2]⟩)
      · obtain ⟨u, hu, e1, e2⟩ := mem_numbers.1 h3
        obtain ⟨x, hx, cx⟩ := tx u (.inr hu)
        obtain ⟨w1, n1, -⟩ := check_tx cx
        exact ⟨x, hx, by rw [← w1, e1], by rw [← n1, e2]; exact h4⟩
    · rintro ⟨h1, h2, x, hx, e1, e2⟩
      have sub : ∀ l, (∀ t ∈ l, t ∈ order ∨ t ∈ p.future) → k ∉ numbers w l := by
        intro l hl hm
        obtain ⟨u, hu, q1, q2⟩ := mem_numbers.1 hm
        obtain ⟨y, hy, cy⟩ := tx u (hl u hu)
        obtain ⟨w1, n1, -⟩ := check_tx cy
        exact h2 y hy ⟨by rw [← w1, q1], by rw [← n1, q2]⟩
      have hk1 : next ≤ k := by
        by_contra hlt
        exact sub order (fun _ h => .inl h) ((ready k).2 ⟨h1, by omega⟩)
      refine ⟨hk1, sub p.future (fun _ h => .inr h), x.number, ?_, e2⟩
      obtain ⟨t, ct⟩ := Option.isSome_iff_exists.1 (hp.valid x hx)
      obtain ⟨w1, n1, -⟩ := check_tx ct
      rcases (mem t).2 ⟨x, hx, ct⟩ with h | h
      · have := (ready x.number).1 (mem_numbers.2 ⟨t, hperm.mem_iff.2 h, by rw [w1, e1], n1⟩)
        omega
      · exact mem_numbers.2 ⟨t, h, by rw [w1, e1], n1⟩
  obtain ⟨m1, m2, m3, m4⟩ := main
  exact ⟨m1, fun k hk => (gap k).1 (m2 k hk), m3, fun k hk => m4 k ((gap k).2 hk)⟩

theorem exact_empty {gap : Nat → Prop} {r : List Nat} (h : Exact gap r) (hg : ∀ k, ¬ gap k) : r = [] :=
  List.eq_nil_iff_forall_not_mem.2 (fun k hk => hg k (h.2.1 k hk))

/-! ## C148 -/

/-- There is such an order for the pool, that in which transactions became ready. -/
theorem C148_listed (cfg : Whole.Config) (s : Wrapped.State) (xs : List Submission) (hp : Proper cfg s xs)
    (hk : OneOfAKind xs) : Listed (submitAll cfg s .empty xs) (submitAll cfg s .empty xs).ready :=
  ⟨.refl _, (submitAll_apart (cfg := cfg) (s := s) hp.different hk).2.2.1⟩

/-- C148 if no two of the transactions are free ones of the msa pallet of the same kind and account. Missing: those
(`C148_full_false`). -/
theorem C148_report_partial (cfg : Whole.Config) (account : AccountId → Bytes) (s : Wrapped.State) (w : AccountId)
    (xs : List Submission) (ha : Accounts account w xs) (hp : Proper cfg s xs) (hk : OneOfAKind xs) (order : List Tx)
    (ho : Listed (submitAll cfg s .empty xs) order) :
    Exact (Gap s xs w) (report account s (submitAll cfg s .empty xs) order w) ∧
    ∀ ys, Accounts account w (xs ++ ys) → Proper cfg s (xs ++ ys) → OneOfAKind (xs ++ ys) →
      (report account s (submitAll cfg s .empty xs) order w).length < 1000 →
      Fills (report account s (submitAll cfg s .empty xs) order w) w ys → Closed cfg account s w (xs ++ ys) := by
  have hE := report_exact (w := w) ha hp hk ho
  refine ⟨hE, fun ys ha' hp' hk' hl hf => ?_⟩
  generalize report account s (submitAll cfg s .empty xs) order w = r at *
  -- what is below a number submitted has been submitted
  have full : ∀ x ∈ xs ++ ys, x.account = w → ∀ n, s.nonces w ≤ n → n < x.number →
      ∃ y ∈ xs ++ ys, y.account = w ∧ y.number = n := by
    intro x hx hw n h1 h2
    by_contra hno
    have no : ∀ y ∈ xs, ¬ (y.account = w ∧ y.number = n) := fun y hy e => hno ⟨y, List.mem_append_left _ hy, e⟩
    have : ∃ x' ∈ xs, x'.account = w ∧ n < x'.number := by
      rcases List.mem_append.1 hx with hx | hx
      · exact ⟨x, hx, hw, h2⟩
      · obtain ⟨-, -, x', hx', e1, e2⟩ := hE.2.1 _ (hf.only x hx hw)
        exact ⟨x', hx', e1, by omega⟩
    rcases hE.2.2.2 n ⟨h1, no, this⟩ with h | ⟨h, -⟩
    · obtain ⟨y, hy, e⟩ := hf.all n h
      exact hno ⟨y, List.mem_append_right _ hy, e⟩
    · omega
  refine ⟨fun x hx hw t ht => ?_, fun order' ho' => ?_⟩
  · refine ((C145_all_partial cfg s (xs ++ ys) hp'.valid hp'.different hk' x hx t ht).2).2 ?_
    rw [hw]
    exact full x hx hw
  · refine exact_empty (report_exact (w := w) ha' hp' hk' ho') ?_
    rintro k ⟨h1, h2, x, hx, e1, e2⟩
    obtain ⟨y, hy, e⟩ := full x hx e1 k h1 e2
    exact h2 y hy e

/-! ## Concrete cases -/

/-- The bytes of an account. -/
def exBytes (w : AccountId) : Bytes := List.replicate 28 0 ++ Scale.u32 w

theorem exBytes_length (w : AccountId) : (exBytes w).length = 32 := by
  simp [exBytes, Scale.u32, Scale.length_leBytes]

/-- C148 fails: provider 1 submits the revocations of three delegations with its numbers 0, 1 and 2. The second is refused,
having the same tag as the first, and number 1 is reported to be missing. -/
theorem C148_full_false : ¬ C148_full := by
  intro h
  have c1 : check Whole.exCfg exState (exRevoke 1 5 0 2) = some (exRevoked 1 5 0) := by decide +kernel
  have c2 : check Whole.exCfg exState (exRevoke 2 5 1 3) = some (exRevoked 2 5 1) := by decide +kernel
  have c3 : check Whole.exCfg exState (exRevoke 3 5 2 2) = some (exRevoked 3 5 2) := by decide +kernel
  have e : submitAll Whole.exCfg exState .empty [exRevoke 1 5 0 2, exRevoke 2 5 1 3, exRevoke 3 5 2 2] =
      ⟨[exRevoked 1 5 0], [exRevoked 3 5 2]⟩ := by
    simp only [submitAll, List.foldl_cons, List.foldl_nil, submit, c1, c2, c3]
    decide +kernel
  have := (h Whole.exCfg exBytes exState 10 [exRevoke 1 5 0 2, exRevoke 2 5 1 3, exRevoke 3 5 2 2]
    ⟨exBytes_length, by intro x hx _; simp only [List.mem_cons, List.not_mem_nil, or_false] at hx; rcases hx with rfl | rfl | rfl <;> rfl⟩
    ⟨by intro x hx; simp only [List.mem_cons, List.not_mem_nil, or_false] at hx
        rcases hx with rfl | rfl | rfl
        · rw [c1]; rfl
        · rw [c2]; rfl
        · rw [c3]; rfl,
      by
        have : ∀ m q n d, (exRevoke m q n d).number = n := fun _ _ _ _ => rfl
        simp [this],
      by intro x hx; simp only [List.mem_cons, List.not_mem_nil, or_false] at hx
         rcases hx with rfl | rfl | rfl <;> decide,
      fun w => by show 0 < _; decide⟩
    [exRevoked 1 5 0] (by
      rw [e]
      refine ⟨.refl _, fun l t r hlr => ?_⟩
      cases l with
      | nil => rw [← (List.cons.inj hlr).1]; rfl
      | cons a l => simp at hlr)).1
  rw [e] at this
  have h1 : (1 : Nat) ∈ report exBytes exState ⟨[exRevoked 1 5 0], [exRevoked 3 5 2]⟩ [exRevoked 1 5 0] 10 := by decide +kernel
  exact (this.2.1 1 h1).2.1 (exRevoke 2 5 1 3) (by simp) ⟨rfl, rfl⟩

/-- The hypotheses of `C148_report_partial` met: transactions 0 and 4 of key 20 are in the pool, then 1, 2 and 3 come.
They retire the handle of the key, which costs nothing. -/
example : let xs := [exRetire 1 4, exRetire 2 0]
    let ys := [exRetire 3 3, exRetire 4 1, exRetire 5 2]
    Accounts exBytes 20 (xs ++ ys) ∧ Proper Whole.exCfg exState (xs ++ ys) ∧ OneOfAKind (xs ++ ys) ∧
    report exBytes exState (submitAll Whole.exCfg exState .empty xs) (submitAll Whole.exCfg exState .empty xs).ready 20 = [1, 2, 3] ∧
    Fills [1, 2, 3] 20 ys ∧ (submitAll Whole.exCfg exState .empty (xs ++ ys)).ready.map Tx.number = [0, 1, 2, 3, 4] := by
  refine ⟨⟨exBytes_length, ?_⟩, ⟨?_, ?_, ?_, fun w => by show 0 < _; decide⟩, ?_, by decide +kernel, ⟨?_, ?_⟩, by decide +kernel⟩
  · intro x hx _
    simp only [List.cons_append, List.nil_append, List.mem_cons, List.not_mem_nil, or_false] at hx
    rcases hx with rfl | rfl | rfl | rfl | rfl <;> rfl
  · intro x hx
    simp only [List.cons_append, List.nil_append, List.mem_cons, List.not_mem_nil, or_false] at hx
    rcases hx with rfl | rfl | rfl | rfl | rfl <;> decide +kernel
  · have : ∀ m n, (exRetire m n).number = n := fun _ _ => rfl
    simp [this]
  · intro x hx
    simp only [List.cons_append, List.nil_append, List.mem_cons, List.not_mem_nil, or_false] at hx
    rcases hx with rfl | rfl | rfl | rfl | rfl <;> decide
  · have : ∀ m n (y : Submission) m1 q1 t1 m2 q2 t2, exRetire m n = .signed m1 q1 t1 → y = .signed m2 q2 t2 → t1.who = t2.who →
        SameKind t1.call t2.call → t1.call = .leaf (.handles .retire) := by
      intro m n y m1 q1 t1 m2 q2 t2 e _ _ _
      simp only [exRetire, exTx, Submission.signed.injEq] at e
      rw [← e.2.2]
    refine List.Pairwise.imp_of_mem (R := fun _ _ => True) (fun {a b} ha _ _ => ?_) (by simp)
    simp only [List.cons_append, List.nil_append, List.mem_cons, List.not_mem_nil, or_false] at ha
    rcases ha with rfl | rfl | rfl | rfl | rfl <;> exact this _ _ b
  · intro n hn
    simp only [List.mem_cons, List.not_mem_nil, or_false] at hn
    rcases hn with rfl | rfl | rfl
    · exact ⟨exRetire 4 1, by simp, rfl, rfl⟩
    · exact ⟨exRetire 5 2, by simp, rfl, rfl⟩
    · exact ⟨exRetire 3 3, by simp, rfl, rfl⟩
  · intro y hy _
    simp only [List.mem_cons, List.not_mem_nil, or_false] at hy
    rcases hy with rfl | rfl | rfl <;> decide

/-- The hypotheses of `C143_tags` hold for the number of one key and a free call of another: their tags differ. -/
example : Tag.bytes exBytes (.number 10 1) ≠ Tag.bytes exBytes (.free .key 20) := fun h =>
  absurd (C143_tags exBytes exBytes_length (.number 10 1) (.free .key 20) (fun e => absurd e (by decide +kernel))
    (fun _ _ e => by cases e; decide) (fun _ _ e => by cases e) h) (by simp)

end Verif.Pool
