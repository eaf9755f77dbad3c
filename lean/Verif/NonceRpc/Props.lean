import Verif.NonceRpc.Model
/-!
# Properties of the query for missing nonces
-/

namespace Verif.NonceRpc

/-! ## Specification -/

/-- A signed transaction in the pool; `more` are the tags of the other transaction extensions, which come after
the tag of the nonce check. -/
structure Tx where
  sender : Bytes
  nonce : Nat
  more : List Bytes

/-- What the pool shows of it. -/
def Tx.toPool (t : Tx) : PoolTx := ⟨tag t.sender t.nonce :: t.more⟩

/-- Accounts have 32 bytes and nonces are 32-bit numbers. -/
def Tx.Valid (t : Tx) : Prop := t.sender.length = 32 ∧ t.nonce < 2 ^ 32

/-- Nonces of the transactions of one account, in the order of the pool. -/
def noncesOf (a : Bytes) (l : List Tx) : List Nat := (l.filter (fun t => decide (t.sender = a))).map Tx.nonce

/-- A pool in a moment where the nonce of the account is `nonce`: its ready transactions are in order and have
nonces up to `next`, apart from outdated ones, and the transactions waiting for others have later nonces. -/
structure PoolOk (a : Bytes) (nonce next : Nat) (ready futures : List Tx) : Prop where
  account : a.length = 32
  valid : ∀ t, t ∈ ready ∨ t ∈ futures → t.Valid
  bound : next < 2 ^ 32
  ready : ∃ old, (∀ n ∈ old, n < nonce) ∧ noncesOf a ready = old ++ List.range' nonce (next - nonce)
  le : nonce ≤ next
  futures : ∀ n ∈ noncesOf a futures, next ≤ n

/-- A nonce is missing: nothing has it, and a transaction with a later nonce waits for it. -/
def Missing (a : Bytes) (next : Nat) (futures : List Tx) (k : Nat) : Prop :=
  next ≤ k ∧ k ∉ noncesOf a futures ∧ ∃ f ∈ noncesOf a futures, k < f

/-- The report is exact: ascending, only missing nonces, all of them or the 1000 lowest. -/
def Exact (a : Bytes) (next : Nat) (futures : List Tx) (r : List Nat) : Prop :=
  r.Pairwise (· < ·) ∧ (∀ k ∈ r, Missing a next futures k) ∧ r.length ≤ 1000 ∧
  ∀ k, Missing a next futures k → k ∈ r ∨ (r.length = 1000 ∧ ∀ j ∈ r, j < k)

/-- C82 as a user would state it. -/
def C82_full : Prop :=
  ∀ (a : Bytes) (nonce next : Nat) (ready futures : List Tx), PoolOk a nonce next ready futures →
    Exact a next futures (getMissingNonces a nonce (ready.map Tx.toPool) (futures.map Tx.toPool))

/-! ## Refutation -/

/-- An account of 32 bytes. -/
def exAccount : Bytes := List.replicate 32 7

/-- C82 is false of the code when two transactions with the same nonce wait, for example a transaction and its
replacement with a tip: with nonces 5, 5 and 8 waiting and 3 the next nonce, the report is 3, 4, 7, without 6. -/
theorem C82_full_false : ¬ C82_full := by
  intro h
  have := h exAccount 3 3 [] [⟨exAccount, 5, []⟩, ⟨exAccount, 8, []⟩, ⟨exAccount, 5, [[1]]⟩]
    ⟨by decide, by simp [Tx.Valid, exAccount], by decide, ⟨[], by simp, rfl⟩, by decide, by decide⟩
  have h6 := this.2.2.2 6 ⟨by decide, by decide, 8, by decide, by decide⟩
  revert h6
  decide

/-! ## Lemmas -/

theorem tag_inj {a b : Bytes} {m n : Nat} (ha : a.length = 32) (hb : b.length = 32) (hm : m < 2 ^ 32)
    (hn : n < 2 ^ 32) (h : tag a m = tag b n) : a = b ∧ m = n := by
  unfold tag at h
  obtain ⟨h1, h2⟩ := List.append_inj h (ha.trans hb.symm)
  exact ⟨h1, Scale.leBytes_inj hm hn h2⟩

theorem futureNonce_eq {a : Bytes} {t : Tx} (ha : a.length = 32) (ht : t.Valid) :
    futureNonce a t.toPool = if t.sender = a then some t.nonce else none := by
  unfold futureNonce Tx.toPool
  simp only [List.head?_cons]
  by_cases h : t.sender = a
  · rw [if_pos (by rw [← h]; exact List.prefix_append _ _), if_pos h]
    unfold tag
    rw [h, List.drop_left, Scale.u32, ← List.append_nil (Scale.leBytes 4 t.nonce),
      Scale.decLe_leBytes 4 _ ht.2]
    rfl
  · rw [if_neg, if_neg h]
    intro hp
    refine h ?_
    unfold tag at hp
    have h1 := List.prefix_of_prefix_length_le hp (List.prefix_append t.sender (Scale.u32 t.nonce))
      (by rw [ha, ht.1])
    exact (h1.eq_of_length (by rw [ha, ht.1])).symm

theorem filterMap_futureNonce {a : Bytes} (ha : a.length = 32) (l : List Tx) (hl : ∀ t ∈ l, t.Valid) :
    (l.map Tx.toPool).filterMap (futureNonce a) = noncesOf a l := by
  induction l with
  | nil => rfl
  | cons t rest ih =>
    have h1 := futureNonce_eq ha (hl t List.mem_cons_self)
    have h2 := ih fun x hx => hl x (List.mem_cons_of_mem _ hx)
    rw [List.map_cons, List.filterMap_cons, h1, h2]
    unfold noncesOf
    by_cases h : t.sender = a
    · simp [h]
    · simp [h]

theorem skipReady_eq {a : Bytes} (ha : a.length = 32) (l : List Tx) : ∀ (cur k : Nat) (old : List Nat),
    (∀ t ∈ l, t.Valid) → noncesOf a l = old ++ List.range' cur k → (∀ n ∈ old, n < cur) → cur + k < 2 ^ 32 →
    skipReady a cur (l.map Tx.toPool) = cur + k := by
  induction l with
  | nil =>
    intro cur k old _ h _ _
    have h' : old ++ List.range' cur k = [] := h.symm
    have : k = 0 := by
      have := congrArg List.length h'
      simp at this
      omega
    subst this
    rfl
  | cons t rest ih =>
    intro cur k old hl h ho hb
    have ht := hl t List.mem_cons_self
    have hr : ∀ x ∈ rest, x.Valid := fun x hx => hl x (List.mem_cons_of_mem _ hx)
    have hstep : skipReady a cur ((t :: rest).map Tx.toPool) =
        skipReady a (if t.sender = a ∧ t.nonce = cur then cur + 1 else cur) (rest.map Tx.toPool) := by
      show List.foldl _ _ _ = _
      rw [List.map_cons, List.foldl_cons]
      show skipReady a (if some (tag t.sender t.nonce) = some (tag a cur) then cur + 1 else cur) _ = _
      congr 1
      by_cases h : t.sender = a ∧ t.nonce = cur
      · rw [if_pos (by rw [h.1, h.2]), if_pos h]
      · rw [if_neg, if_neg h]
        intro e
        exact h (tag_inj ht.1 ha ht.2 (by omega) (Option.some.inj e))
    rw [hstep]
    by_cases hs : t.sender = a
    · have hn : noncesOf a (t :: rest) = t.nonce :: noncesOf a rest := by
        unfold noncesOf
        simp [hs]
      rw [hn] at h
      cases old with
      | cons o os =>
        rw [List.cons_append, List.cons.injEq] at h
        have := ho o List.mem_cons_self
        rw [if_neg (by omega)]
        exact ih cur k os hr h.2 (fun n hn => ho n (List.mem_cons_of_mem _ hn)) hb
      | nil =>
        cases k with
        | zero => simp at h
        | succ k =>
          rw [List.nil_append, List.range'_succ, List.cons.injEq] at h
          rw [if_pos ⟨hs, h.1⟩, ih (cur + 1) k [] hr (by rw [h.2]; rfl) (by simp) (by omega)]
          omega
    · have hn : noncesOf a (t :: rest) = noncesOf a rest := by
        unfold noncesOf
        simp [hs]
      rw [hn] at h
      rw [if_neg fun e => hs e.1]
      exact ih cur k old hr h ho hb

theorem insertNat_perm (x : Nat) (l : List Nat) : (insertNat x l).Perm (x :: l) := by
  induction l with
  | nil => exact .refl _
  | cons y ys ih =>
    unfold insertNat
    split
    · exact .refl _
    · exact (ih.cons y).trans (.swap x y ys)

theorem sortNat_perm (l : List Nat) : (sortNat l).Perm l := by
  induction l with
  | nil => exact .refl _
  | cons x xs ih => exact (insertNat_perm x _).trans (ih.cons x)

theorem insertNat_sorted (x : Nat) (l : List Nat) (h : l.Pairwise (· ≤ ·)) :
    (insertNat x l).Pairwise (· ≤ ·) := by
  induction l with
  | nil => simp [insertNat]
  | cons y ys ih =>
    rw [List.pairwise_cons] at h
    unfold insertNat
    split
    · rename_i hxy
      rw [List.pairwise_cons]
      refine ⟨fun z hz => ?_, List.pairwise_cons.2 h⟩
      rcases List.mem_cons.1 hz with rfl | hz
      · exact hxy
      · exact Nat.le_trans hxy (h.1 z hz)
    · rename_i hxy
      rw [List.pairwise_cons]
      refine ⟨fun z hz => ?_, ih h.2⟩
      rcases List.mem_cons.1 ((insertNat_perm x ys).mem_iff.1 hz) with rfl | hz
      · omega
      · exact h.1 z hz

theorem sortNat_sorted (l : List Nat) : (sortNat l).Pairwise (· ≤ ·) := by
  induction l with
  | nil => exact .nil
  | cons x xs ih => exact insertNat_sorted x _ ih

/-- The report without limit, for sorted distinct nonces. -/
def holes : List Nat → Nat → List Nat
  | [], _ => []
  | f :: fs, cur => List.range' cur (f - cur) ++ holes fs (cur + (f - cur) + 1)

theorem fill_eq (limit k : Nat) : ∀ (acc : List Nat) (cur : Nat), acc.length < limit →
    (acc.length + k < limit ∧ fill limit k acc cur = (acc ++ List.range' cur k, cur + k, false)) ∨
    (limit ≤ acc.length + k ∧ ∃ c, fill limit k acc cur = ((acc ++ List.range' cur k).take limit, c, true)) := by
  induction k with
  | zero => intro acc cur h; left; simp [fill, h]
  | succ k ih =>
    intro acc cur h
    unfold fill
    have hlen : (acc ++ [cur]).length = acc.length + 1 := by simp
    have he : acc ++ List.range' cur (k + 1) = (acc ++ [cur]) ++ List.range' (cur + 1) k := by
      rw [List.range'_succ]; simp
    split
    · rename_i hl
      right
      refine ⟨by omega, cur + 1, ?_⟩
      rw [he, ← hl, List.take_left]
    · rename_i hl
      rcases ih (acc ++ [cur]) (cur + 1) (by omega) with ⟨h1, h2⟩ | ⟨h1, c, h2⟩
      · left
        refine ⟨by omega, ?_⟩
        rw [h2, he]
        congr 2
        omega
      · right
        refine ⟨by omega, c, ?_⟩
        rw [h2, he]

theorem scan_eq (limit : Nat) (fs : List Nat) : ∀ (acc : List Nat) (cur : Nat), acc.length < limit →
    scan limit fs acc cur = (acc ++ holes fs cur).take limit := by
  induction fs with
  | nil =>
    intro acc cur h
    simp only [scan, holes, List.append_nil]
    rw [List.take_of_length_le (by omega)]
  | cons f fs ih =>
    intro acc cur h
    unfold scan holes
    rcases fill_eq limit (f - cur) acc cur h with ⟨h1, h2⟩ | ⟨h1, c, h2⟩
    · rw [h2]
      simp only
      rw [ih _ _ (by simp; omega), List.append_assoc]
    · rw [h2]
      simp only
      rw [← List.append_assoc, List.take_append_of_le_length (i := limit)
        (l₁ := acc ++ List.range' cur (f - cur)) (by rw [List.length_append, List.length_range']; exact h1)]

theorem mem_holes (fs : List Nat) : ∀ cur : Nat, fs.Pairwise (· < ·) → (∀ f ∈ fs, cur ≤ f) → ∀ k,
    k ∈ holes fs cur ↔ cur ≤ k ∧ k ∉ fs ∧ ∃ f ∈ fs, k < f := by
  induction fs with
  | nil => intro cur _ _ k; simp [holes]
  | cons f fs ih =>
    intro cur hp hc k
    rw [List.pairwise_cons] at hp
    have hf := hc f List.mem_cons_self
    unfold holes
    rw [List.mem_append, List.mem_range'_1, ih _ hp.2 (fun x hx => by have := hp.1 x hx; omega)]
    constructor
    · rintro (h | ⟨h1, h2, g, hg, h3⟩)
      · refine ⟨h.1, fun hm => ?_, f, List.mem_cons_self, by omega⟩
        rcases List.mem_cons.1 hm with e | hm
        · omega
        · have := hp.1 k hm; omega
      · refine ⟨by omega, fun hm => ?_, g, List.mem_cons_of_mem _ hg, h3⟩
        rcases List.mem_cons.1 hm with e | hm
        · omega
        · exact h2 hm
    · rintro ⟨h1, h2, g, hg, h3⟩
      by_cases hk : k < f
      · left; omega
      · right
        have hkf : k ≠ f := fun e => h2 (by rw [e]; exact List.mem_cons_self)
        refine ⟨by omega, fun hm => h2 (List.mem_cons_of_mem _ hm), ?_⟩
        rcases List.mem_cons.1 hg with e | hg
        · omega
        · exact ⟨g, hg, h3⟩

theorem holes_sorted (fs : List Nat) : ∀ cur : Nat, fs.Pairwise (· < ·) → (∀ f ∈ fs, cur ≤ f) →
    (holes fs cur).Pairwise (· < ·) := by
  induction fs with
  | nil => intro cur _ _; exact .nil
  | cons f fs ih =>
    intro cur hp hc
    rw [List.pairwise_cons] at hp
    have hle : ∀ x ∈ fs, cur + (f - cur) + 1 ≤ x := fun x hx => by
      have := hp.1 x hx; have := hc f List.mem_cons_self; omega
    unfold holes
    rw [List.pairwise_append]
    refine ⟨List.pairwise_lt_range' _, ih _ hp.2 hle, fun x hx y hy => ?_⟩
    rw [List.mem_range'_1] at hx
    have := ((mem_holes fs _ hp.2 hle y).1 hy).1
    omega

/-! ## C82 -/

/-- C82, partial: the report is exact if no two waiting transactions of the account have the same nonce.
Missing: waiting transactions with equal nonces, where the claim is false (`C82_full_false`). -/
theorem C82_report_exact_partial (a : Bytes) (nonce next : Nat) (ready futures : List Tx)
    (h : PoolOk a nonce next ready futures) (hd : (noncesOf a futures).Nodup) :
    Exact a next futures (getMissingNonces a nonce (ready.map Tx.toPool) (futures.map Tx.toPool)) := by
  obtain ⟨ha, hv, hb, ⟨old, ho, hr⟩, hle, hf⟩ := h
  have hcur : skipReady a nonce (ready.map Tx.toPool) = next := by
    rw [skipReady_eq ha ready nonce (next - nonce) old (fun t ht => hv t (.inl ht)) hr ho (by omega)]
    omega
  unfold getMissingNonces
  rw [hcur, filterMap_futureNonce ha futures fun t ht => hv t (.inr ht),
    scan_eq maxReturned _ _ _ (by decide), List.nil_append]
  have hperm := sortNat_perm (noncesOf a futures)
  have hstrict : (sortNat (noncesOf a futures)).Pairwise (· < ·) := by
    have h1 := sortNat_sorted (noncesOf a futures)
    have h2 : (sortNat (noncesOf a futures)).Nodup := hperm.nodup_iff.2 hd
    exact (h1.and h2).imp fun ⟨x, y⟩ => by omega
  have hge : ∀ f ∈ sortNat (noncesOf a futures), next ≤ f := fun f hm => hf f (hperm.mem_iff.1 hm)
  have hmem : ∀ k, k ∈ holes (sortNat (noncesOf a futures)) next ↔ Missing a next futures k := by
    intro k
    rw [mem_holes _ _ hstrict hge]
    unfold Missing
    simp only [hperm.mem_iff]
  have hsorted := holes_sorted _ next hstrict hge
  generalize holes (sortNat (noncesOf a futures)) next = l at *
  refine ⟨hsorted.sublist (List.take_sublist _ _), fun k hk => (hmem k).1 (List.mem_of_mem_take hk),
    by rw [List.length_take]; unfold maxReturned; omega, fun k hk => ?_⟩
  have hkl := (hmem k).2 hk
  by_cases hlen : l.length ≤ maxReturned
  · left; rw [List.take_of_length_le hlen]; exact hkl
  · rw [← List.take_append_drop maxReturned l, List.mem_append] at hkl
    rcases hkl with hkl | hkl
    · exact .inl hkl
    · right
      refine ⟨by rw [List.length_take]; unfold maxReturned at *; omega, fun j hj => ?_⟩
      rw [← List.take_append_drop maxReturned l, List.pairwise_append] at hsorted
      exact hsorted.2.2 j hj k hkl

/-- Hypotheses met: another account's transactions in between, one outdated and one ready transaction, nonces 7 and
5 waiting. -/
example :
    let other : Bytes := List.replicate 32 9
    let ready : List Tx := [⟨other, 0, []⟩, ⟨exAccount, 2, []⟩, ⟨exAccount, 3, [[1]]⟩, ⟨other, 1, []⟩]
    let futures : List Tx := [⟨exAccount, 7, []⟩, ⟨other, 6, []⟩, ⟨exAccount, 5, []⟩]
    PoolOk exAccount 3 4 ready futures ∧ (noncesOf exAccount futures).Nodup ∧
    getMissingNonces exAccount 3 (ready.map Tx.toPool) (futures.map Tx.toPool) = [4, 6] := by
  refine ⟨⟨by decide, ?_, by decide, ⟨[2], by decide, by decide⟩, by decide, by decide⟩, by decide, by decide⟩
  intro t ht
  simp only [List.mem_cons, List.not_mem_nil, or_false] at ht
  rcases ht with (rfl | rfl | rfl | rfl) | rfl | rfl | rfl <;> exact ⟨by decide, by decide⟩

end Verif.NonceRpc
