import Verif.Tx.PropsExchange
/-!
# C174: leaving out transactions does not affect those that have nothing in common with them
-/

namespace Verif.Tx
open Verif.Chain (Part msaOf)

/-! ## Specification -/

/-- The transactions that are not left out. -/
def kept (out : Signed → Bool) (h : List Signed) : List Signed := h.filter (fun t => !out t)

/-- Two states agree on some pallets, keys and payers, and on everything that messages, handles and stored data cannot change. -/
structure AgreeOn (P : Part → Prop) (K : AccountId → Prop) (M : MsaId → Prop) (s s' : State) : Prop where
  block : s.chain.block = s'.chain.block
  msa : s.chain.msa = s'.chain.msa
  schemas : s.chain.schemas = s'.chain.schemas
  parts : ∀ p, p ≠ .capacity → P p → p.Same s.chain s'.chain
  accounts : ∀ k, K k → s.accounts.get k = s'.accounts.get k
  capacity : ∀ m, M m → s.chain.capacity.capacity.get m = s'.chain.capacity.capacity.get m
  stakes : ∀ a, s.chain.capacity.active.get a = s'.chain.capacity.active.get a ∧
    s.chain.capacity.frozen.get a = s'.chain.capacity.frozen.get a ∧ s.chain.capacity.unlocks.get a = s'.chain.capacity.unlocks.get a
  targets : ∀ a m, s.chain.capacity.target.get (a, m) = s'.chain.capacity.target.get (a, m)
  epoch : s.chain.capacity.epoch = s'.chain.capacity.epoch ∧ s.chain.capacity.epochStart = s'.chain.capacity.epochStart ∧
    s.chain.capacity.epochLength = s'.chain.capacity.epochLength

/-! ## One transaction -/

section
variable {P : Part → Prop} {K : AccountId → Prop} {M : MsaId → Prop}

theorem content_ne {p : Part} (h : Content p) : p ≠ .capacity ∧ .msa ≠ p ∧ .schemas ≠ p := by
  rcases h with h | h | h <;> rw [h] <;> simp

theorem AgreeOn.refl (s : State) : AgreeOn P K M s s :=
  ⟨rfl, rfl, rfl, fun p _ _ => .refl p _, fun _ _ => rfl, fun _ _ => rfl, fun _ => ⟨rfl, rfl, rfl⟩, fun _ _ => rfl, rfl, rfl, rfl⟩

theorem AgreeOn.payer {s s' : State} (h : AgreeOn P K M s s') (t : Signed) : payer s' t = payer s t := by
  unfold Tx.payer msaOf
  rw [h.msa]

/-- A transaction about what the states agree on fares alike, and they agree afterwards. -/
theorem AgreeOn.both (cfg : Config) {s s' : State} (h : AgreeOn P K M s s') {t : Signed} {c : Chain.Call} (hc : t.call.single = some c)
    (hp : Content c.part) (h1 : P c.part) (h2 : K t.who) (h3 : ∀ m, Tx.payer s t = some m → M m) :
    fate cfg s t = fate cfg s' t ∧ AgreeOn P K M (submit cfg s t) (submit cfg s' t) := by
  obtain ⟨n1, n2, n3⟩ := content_ne hp
  have hr : Reads cfg t c s s' := by
    refine ⟨h.block, h.parts _ n1 h1, ⟨fun _ => by unfold msaOf; rw [h.msa], fun _ => ?_, fun _ => ?_, fun e => ?_⟩, h.accounts _ h2,
      fun m hm => h.capacity m (h3 m hm), h.epoch.1⟩
    · rw [h.msa]; exact ⟨fun _ _ => rfl, fun _ _ _ _ _ _ => rfl, fun _ _ => rfl⟩
    · rw [h.schemas]; exact ⟨fun _ _ _ _ => rfl, fun _ _ _ _ => Iff.rfl⟩
    · rw [e] at n2; exact absurd rfl n2
  obtain ⟨a1, a2, a3, a4⟩ := submit_alike cfg hc n1 hr
  obtain ⟨f1, f2, f3, f4⟩ := submit_frame cfg s t hc n1
  obtain ⟨g1, g2, g3, g4⟩ := submit_frame cfg s' t hc n1
  rw [h.payer t] at g3
  have fm : (submit cfg s t).chain.msa = s.chain.msa := f2 .msa (by simp) n2
  have gm : (submit cfg s' t).chain.msa = s'.chain.msa := g2 .msa (by simp) n2
  have fs : (submit cfg s t).chain.schemas = s.chain.schemas := f2 .schemas (by simp) n3
  have gs : (submit cfg s' t).chain.schemas = s'.chain.schemas := g2 .schemas (by simp) n3
  refine ⟨a1, by rw [f1, g1, h.block], by rw [fm, gm, h.msa], by rw [fs, gs, h.schemas], fun p hpc hP => ?_, fun k hk => ?_, fun m hm => ?_,
    fun a => ?_, fun a m => ?_, ?_⟩
  · by_cases e : p = c.part
    · subst e; exact a2
    · exact ((f2 p hpc e).trans (h.parts p hpc hP)).trans (g2 p hpc e).symm
  · by_cases e : k = t.who
    · subst e; exact a3
    · rw [f4 k e, g4 k e]; exact h.accounts k hk
  · by_cases e : Tx.payer s t = some m
    · exact a4 m e
    · rw [← f3.cap m e, ← g3.cap m e]; exact h.capacity m hm
  · rw [← (f3.mine a).1, ← (f3.mine a).2.1, ← (f3.mine a).2.2, ← (g3.mine a).1, ← (g3.mine a).2.1, ← (g3.mine a).2.2]
    exact h.stakes a
  · rw [← f3.target, ← g3.target]; exact h.targets a m
  · rw [← f3.epoch.1, ← f3.epoch.2.1, ← f3.epoch.2.2, ← g3.epoch.1, ← g3.epoch.2.1, ← g3.epoch.2.2]; exact h.epoch

/-- A transaction about what they need not agree on can be left out of one of the two. -/
theorem AgreeOn.left (cfg : Config) {s s' : State} (h : AgreeOn P K M s s') {t : Signed} {c : Chain.Call} (hc : t.call.single = some c)
    (hp : Content c.part) (h1 : ¬ P c.part) (h2 : ¬ K t.who) (h3 : ∀ m, Tx.payer s t = some m → ¬ M m) :
    AgreeOn P K M (submit cfg s t) s' := by
  obtain ⟨n1, n2, n3⟩ := content_ne hp
  obtain ⟨f1, f2, f3, f4⟩ := submit_frame cfg s t hc n1
  have fm : (submit cfg s t).chain.msa = s.chain.msa := f2 .msa (by simp) n2
  have fs : (submit cfg s t).chain.schemas = s.chain.schemas := f2 .schemas (by simp) n3
  refine ⟨by rw [f1, h.block], by rw [fm, h.msa], by rw [fs, h.schemas], fun p hpc hP => ?_, fun k hk => ?_, fun m hm => ?_,
    fun a => ?_, fun a m => ?_, ?_⟩
  · exact (f2 p hpc (fun e => h1 (e ▸ hP))).trans (h.parts p hpc hP)
  · rw [f4 k (fun e => h2 (e ▸ hk))]; exact h.accounts k hk
  · rw [← f3.cap m (fun e => h3 m e hm)]; exact h.capacity m hm
  · rw [← (f3.mine a).1, ← (f3.mine a).2.1, ← (f3.mine a).2.2]; exact h.stakes a
  · rw [← f3.target]; exact h.targets a m
  · rw [← f3.epoch.1, ← f3.epoch.2.1, ← f3.epoch.2.2]; exact h.epoch

/-- The transactions one after the other. -/
theorem AgreeOn.run (cfg : Config) (out : Signed → Bool) (s0 : State) (h : List Signed) {s s' : State} (hs : AgreeOn P K M s s')
    (h0 : ∀ t, Tx.payer s t = Tx.payer s0 t) (hc : ∀ t ∈ h, ContentTx t)
    (hi : ∀ t ∈ h, out t = false → (∀ p, t.part = some p → P p) ∧ K t.who ∧ ∀ m, Tx.payer s0 t = some m → M m)
    (ho : ∀ t ∈ h, out t = true → (∀ p, t.part = some p → ¬ P p) ∧ ¬ K t.who ∧ ∀ m, Tx.payer s0 t = some m → ¬ M m) :
    AgreeOn P K M (submits cfg s h) (submits cfg s' (kept out h)) := by
  induction h generalizing s s' with
  | nil => exact hs
  | cons t h ih =>
    have ht := hc t List.mem_cons_self
    have h0' : ∀ u, Tx.payer (submit cfg s t) u = Tx.payer s0 u := fun u => (payer_submit cfg s ht u).trans (h0 u)
    obtain ⟨c, e, hp⟩ := ht
    have ep : t.part = some c.part := by simp [Signed.part, e]
    have hc' := fun u hu => hc u (List.mem_cons_of_mem t hu)
    have hi' := fun u hu => hi u (List.mem_cons_of_mem t hu)
    have ho' := fun u hu => ho u (List.mem_cons_of_mem t hu)
    cases hx : out t with
    | false =>
      obtain ⟨i1, i2, i3⟩ := hi t List.mem_cons_self hx
      have e2 : kept out (t :: h) = t :: kept out h := by simp [kept, hx]
      rw [e2]
      exact ih (hs.both cfg e hp (i1 _ ep) i2 (fun m hm => i3 m ((h0 t).symm.trans hm))).2 h0' hc' hi' ho'
    | true =>
      obtain ⟨o1, o2, o3⟩ := ho t List.mem_cons_self hx
      have e2 : kept out (t :: h) = kept out h := by simp [kept, hx]
      rw [e2]
      exact ih (hs.left cfg e hp (o1 _ ep) o2 (fun m hm => o3 m ((h0 t).symm.trans hm))) h0' hc' hi' ho'
end

/-! ## The property -/

/-- C174: whoever makes a block of messages, calls about handles and calls about stored data leaves some of them out. A transaction
with another key, to another pallet and not paid with the capacity of the same account as any of those is taken in, and its call
succeeds, as if none had been left out. -/
theorem C174_fate (cfg : Config) (s : State) (out : Signed → Bool) (a : List Signed) (t : Signed) (hc : ∀ u ∈ a, ContentTx u)
    (ht : ContentTx t) (hi : ∀ u ∈ a, ∀ v ∈ t :: a, out u = true → (out v = false ∨ v = t) → Apart s u v) :
    fate cfg (submits cfg s a) t = fate cfg (submits cfg s (kept out a)) t := by
  let P : Part → Prop := fun p => ∀ u ∈ a, out u = true → u.part ≠ some p
  let K : AccountId → Prop := fun k => ∀ u ∈ a, out u = true → u.who ≠ k
  let M : MsaId → Prop := fun m => ∀ u ∈ a, out u = true → payer s u ≠ some m
  have key : ∀ v ∈ t :: a, (out v = false ∨ v = t) → (∀ p, v.part = some p → P p) ∧ K v.who ∧ ∀ m, payer s v = some m → M m :=
    fun v hv hx => ⟨fun p hp u hu ho e => (hi u hu v hv ho hx).2.1 (e.trans hp.symm), fun u hu ho => (hi u hu v hv ho hx).1,
      fun m hm u hu ho e => (hi u hu v hv ho hx).2.2 m e hm⟩
  have r := AgreeOn.run (P := P) (K := K) (M := M) cfg out s a (.refl s) (fun _ => rfl) hc
    (fun v hv hx => key v (List.mem_cons_of_mem _ hv) (.inl hx))
    (fun u hu ho => ⟨fun p hp h => h u hu ho hp, fun h => h u hu ho rfl, fun m hm h => h u hu ho hm⟩)
  obtain ⟨c, e, hp⟩ := ht
  obtain ⟨i1, i2, i3⟩ := key t List.mem_cons_self (.inr rfl)
  have hpay : ∀ (l : List Signed) (s1 : State), (∀ u ∈ l, ContentTx u) → payer (submits cfg s1 l) t = payer s1 t := by
    intro l
    induction l with
    | nil => intro s1 _; rfl
    | cons u l ih =>
      intro s1 hl
      exact (ih (submit cfg s1 u) (fun v hv => hl v (List.mem_cons_of_mem _ hv))).trans (payer_submit cfg s1 (hl u List.mem_cons_self) t)
  exact (r.both cfg e hp (i1 _ (by simp [Signed.part, e])) i2 (fun m hm => i3 m ((hpay a s hc).symm.trans hm))).1

/-- C174: after the block everything is stored as if none had been left out, but for the pallets called, the numbers of the keys and
the capacity of the payers of those left out. -/
theorem C174_stored (cfg : Config) (s : State) (out : Signed → Bool) (h : List Signed) (hc : ∀ u ∈ h, ContentTx u)
    (hi : ∀ u ∈ h, ∀ v ∈ h, out u = true → out v = false → Apart s u v) :
    AgreeOn (fun p => ∀ u ∈ h, out u = true → u.part ≠ some p) (fun k => ∀ u ∈ h, out u = true → u.who ≠ k)
      (fun m => ∀ u ∈ h, out u = true → payer s u ≠ some m) (submits cfg s h) (submits cfg s (kept out h)) :=
  AgreeOn.run cfg out s h (.refl s) (fun _ => rfl) hc
    (fun v hv hx => ⟨fun p hp u hu ho e => (hi u hu v hv ho hx).2.1 (e.trans hp.symm), fun u hu ho => (hi u hu v hv ho hx).1,
      fun m hm u hu ho e => (hi u hu v hv ho hx).2.2 m e hm⟩)
    (fun u hu ho => ⟨fun p hp h => h u hu ho hp, fun h => h u hu ho rfl, fun m hm h => h u hu ho hm⟩)

/-! ## A concrete chain -/

/-- The transactions of key 10 are left out. -/
def exOut (t : Signed) : Bool := t.who == 10

/-- Hypotheses of the two met: the message and the page of key 10 are left out, the claim of a handle that key 40 submits is not. -/
theorem exOut_apart : ∀ u ∈ exBlock, ∀ v ∈ exBlock, exOut u = true → (exOut v = false ∨ v = exSigned 40 exClaim) → Apart exTwo u v := by
  have p1 : payer exTwo (exSigned 10 exPost) = some 1 := by decide +kernel
  have p2 : payer exTwo exPage = some 1 := by decide +kernel
  have p3 : payer exTwo (exSigned 40 exClaim) = some 3 := by decide +kernel
  have o1 : exOut (exSigned 10 exPost) = true := rfl
  have o2 : exOut exPage = true := rfl
  have o3 : exOut (exSigned 40 exClaim) = false := rfl
  intro u hu v hv h1 h2
  have hv3 : v = exSigned 40 exClaim := by
    rcases h2 with h2 | h2
    · simp only [exBlock, List.mem_cons, List.not_mem_nil, or_false] at hv
      rcases hv with rfl | rfl | rfl
      · rw [o1] at h2; cases h2
      · rw [o2] at h2; cases h2
      · rfl
    · exact h2
  subst hv3
  simp only [exBlock, List.mem_cons, List.not_mem_nil, or_false] at hu
  rcases hu with rfl | rfl | rfl
  · exact ⟨by decide, by decide, fun m h => by rw [p1] at h; cases h; rw [p3]; decide⟩
  · exact ⟨by decide, by decide, fun m h => by rw [p2] at h; cases h; rw [p3]; decide⟩
  · rw [o3] at h1; cases h1

/-- The claim is taken in and succeeds with and without the others; without them there is no message and no page and account 1 has
not paid. -/
example : kept exOut exBlock = [exSigned 40 exClaim] ∧
    fate exCfg (submits exCfg exTwo (exBlock.take 2)) (exSigned 40 exClaim) = some true ∧
    fate exCfg exTwo (exSigned 40 exClaim) = some true ∧
    spendable (submits exCfg exTwo exBlock).chain 1 = 6 ∧ spendable (submits exCfg exTwo (kept exOut exBlock)).chain 1 = 10 ∧
    spendable (submits exCfg exTwo exBlock).chain 3 = 8 ∧ spendable (submits exCfg exTwo (kept exOut exBlock)).chain 3 = 8 := by
  exact ⟨rfl, by decide +kernel⟩

end Verif.Tx
