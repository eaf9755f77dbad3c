import Verif.Weights.Model
import Verif.Wrapped.Lemmas
import Verif.Wrapped.Steps
/-!
# How many calls of a kind a weight allows
-/

namespace Verif.Weights

open Verif.Wrapped (Call World Filter exec execL)
open Verif.Runtime (BatchKind)

/-- The calls of the messages pallet among executed calls. -/
def posts (l : List (AccountId × Call)) : List (AccountId × Messages.Call) :=
  l.filterMap (fun e => match e.2 with
    | .leaf (.messages c) => some (e.1, c)
    | _ => none)

theorem posts_append (l l' : List (AccountId × Call)) : posts (l ++ l') = posts l ++ posts l' :=
  List.filterMap_append ..

/-- How many calls of a kind are among executed calls. -/
def count (mark : Chain.Call → Bool) (l : List (AccountId × Call)) : Nat :=
  l.countP (fun e => match e.2 with
    | .leaf c => mark c
    | _ => false)

theorem count_append (mark : Chain.Call → Bool) (l l' : List (AccountId × Call)) :
    count mark (l ++ l') = count mark l + count mark l' := List.countP_append ..

/-- Messages. -/
def isMessage : Chain.Call → Bool
  | .messages _ => true
  | _ => false

theorem count_posts (l : List (AccountId × Call)) : count isMessage l = (posts l).length := by
  induction l with
  | nil => rfl
  | cons e l ih =>
    rw [show e :: l = [e] ++ l from rfl, count_append, posts_append, List.length_append, ih]
    congr 1
    obtain ⟨a, c⟩ := e
    match c with
    | .leaf (.messages m) => rfl
    | .leaf (.msa _) | .leaf (.schemas _) | .leaf (.handles _) | .leaf (.storage _) | .leaf (.capacity _) | .release _
    | .transfer .. | .transferAll .. | .other .. | .addProxy .. | .removeProxy .. | .removeProxies | .createPure ..
    | .killPure .. | .announce .. | .removeAnnouncement .. | .rejectAnnouncement .. | .approveMulti .. | .cancelMulti ..
    | .proxy .. | .proxyAnnounced .. | .batch .. | .asDerivative .. | .payWithCapacity .. | .payWithCapacityBatchAll ..
    | .multiThreshold1 .. | .multi .. => rfl

/-- All calls of a kind have a weight, and are of class `Normal`. -/
structure Priced (P : Prices) (mark : Chain.Call → Bool) (least : Nat) : Prop where
  weight : ∀ c, mark c = true → least ≤ weight P (.leaf c)
  normal : ∀ c, mark c = true → cls P (.leaf c) = .normal

mutual
/-- How many calls of a kind a call carries. -/
def carried (mark : Chain.Call → Bool) : Call → Nat
  | .leaf c => if mark c then 1 else 0
  | .proxy _ _ i => carried mark i
  | .proxyAnnounced _ _ _ i => carried mark i
  | .batch _ calls => carriedL mark calls
  | .asDerivative _ i => carried mark i
  | .payWithCapacity i => carried mark i
  | .payWithCapacityBatchAll calls => carriedL mark calls
  | .multiThreshold1 _ i => carried mark i
  | .multi _ _ i => carried mark i
  | _ => 0
/-- The sum for a list of calls. -/
def carriedL (mark : Chain.Call → Bool) : List Call → Nat
  | [] => 0
  | c :: cs => carried mark c + carriedL mark cs
end

/-- The least weight of a message. -/
def least : Nat := 179_152_000

theorem message_least (m : Messages.Call) : least ≤ message m := by
  cases m with
  | onchain o k p =>
    simp only [message, satAdd, reads, writes, maxWeight, least]
    omega
  | ipfs k cid len =>
    simp only [message, satAdd, reads, writes, maxWeight, least]
    omega

theorem message_priced (P : Prices) : Priced P isMessage least where
  weight c hc := by
    cases c <;> simp [isMessage] at hc
    rw [weight]
    exact message_least _
  normal c hc := by
    cases c <;> simp [isMessage] at hc
    rw [cls]

theorem satAdd_right {a b n : Nat} (h : min n maxWeight ≤ b) : min n maxWeight ≤ satAdd a b := by
  unfold satAdd; omega

theorem satAdd_both {a b n m : Nat} (h : min n maxWeight ≤ a) (h' : min m maxWeight ≤ b) :
    min (n + m) maxWeight ≤ satAdd a b := by
  unfold satAdd; omega

variable {P : Prices} {mark : Chain.Call → Bool} {least : Nat}

mutual
/-- The declared weight covers all calls carried. -/
theorem carried_weight (hp : Priced P mark least) (c : Call) : min (carried mark c * least) maxWeight ≤ weight P c := by
  match c with
  | .leaf c =>
    simp only [carried]
    split
    · rename_i hc
      have := hp.weight c hc
      omega
    · simp
  | .proxy _ _ i => exact satAdd_right (carried_weight hp i)
  | .proxyAnnounced _ _ _ i => exact satAdd_right (carried_weight hp i)
  | .batch _ calls => exact satAdd_right (carriedL_weight hp calls)
  | .asDerivative _ i => exact satAdd_right (carried_weight hp i)
  | .payWithCapacity i => exact satAdd_right (carried_weight hp i)
  | .payWithCapacityBatchAll calls => exact satAdd_right (carriedL_weight hp calls)
  | .multiThreshold1 _ i => exact satAdd_right (carried_weight hp i)
  | .multi _ _ i => exact satAdd_right (carried_weight hp i)
  | .release _
  | .transfer .. | .transferAll .. | .other .. | .addProxy .. | .removeProxy .. | .removeProxies | .createPure ..
  | .killPure .. | .announce .. | .removeAnnouncement .. | .rejectAnnouncement .. | .approveMulti .. | .cancelMulti .. =>
    simp [carried]
theorem carriedL_weight (hp : Priced P mark least) (cs : List Call) : min (carriedL mark cs * least) maxWeight ≤ weightL P cs := by
  match cs with
  | [] => simp [carriedL]
  | c :: cs =>
    simp only [carriedL, weightL, Nat.add_mul]
    exact satAdd_both (carried_weight hp c) (carriedL_weight hp cs)
end

mutual
/-- What carries such calls is of class `Normal`. -/
theorem carried_normal (hp : Priced P mark least) (c : Call) (h : cls P c ≠ .normal) : carried mark c = 0 := by
  match c with
  | .leaf c =>
    simp only [carried]
    split
    · rename_i hc
      exact absurd (hp.normal c hc) h
    · rfl
  | .proxy _ _ i => exact carried_normal hp i h
  | .proxyAnnounced _ _ _ i => exact carried_normal hp i h
  | .batch _ calls =>
    simp only [cls] at h
    split at h
    · rename_i ho; exact carriedL_normal hp calls ho
    · exact absurd rfl h
  | .asDerivative _ i => exact carried_normal hp i h
  | .payWithCapacity i => exact carried_normal hp i h
  | .payWithCapacityBatchAll calls => exact absurd rfl h
  | .multiThreshold1 _ i => exact carried_normal hp i h
  | .multi _ _ i => exact absurd rfl h
  | .release _
  | .transfer .. | .transferAll .. | .other .. | .addProxy .. | .removeProxy .. | .removeProxies | .createPure ..
  | .killPure .. | .announce .. | .removeAnnouncement .. | .rejectAnnouncement .. | .approveMulti .. | .cancelMulti .. =>
    simp [carried]
theorem carriedL_normal (hp : Priced P mark least) (cs : List Call) (h : allOperational P cs = true) : carriedL mark cs = 0 := by
  match cs with
  | [] => rfl
  | c :: cs =>
    simp only [allOperational, Bool.and_eq_true, decide_eq_true_eq] at h
    simp only [carriedL]
    rw [carried_normal hp c (by rw [h.1]; simp), carriedL_normal hp cs h.2]
end

/-- An execution adds these many calls of the kind to the log. -/
def Adds (mark : Chain.Call → Bool) (w w' : World) (n : Nat) : Prop := ∃ l, w'.log = w.log ++ l ∧ count mark l = n

theorem Adds.refl (w : World) : Adds mark w w 0 := ⟨[], by simp, rfl⟩

theorem Adds.trans {w w' w'' : World} {n m : Nat} (h : Adds mark w w' n) (h' : Adds mark w' w'' m) :
    Adds mark w w'' (n + m) := by
  obtain ⟨l, h1, h2⟩ := h
  obtain ⟨l', h3, h4⟩ := h'
  exact ⟨l ++ l', by rw [h3, h1, List.append_assoc], by rw [count_append, h2, h4]⟩

theorem Adds.of_log {w w1 w' : World} {n : Nat} (e : w1.log = w.log) (h : Adds mark w1 w' n) :
    Adds mark w w' n := by
  obtain ⟨l, h1, h2⟩ := h
  exact ⟨l, by rw [h1, e], h2⟩

theorem adds_step (hp : Priced P mark least) {cfg : Wrapped.Config} {env : TimeRelease.Env} {who : AccountId} {w w' : World}
    {c : Call} (h : Wrapped.step cfg env who w c = some w') :
    ∃ n, Adds mark w (w'.done who c) n ∧ n ≤ carried mark c ∧ n * least ≤ weight P c := by
  have hl : (w'.done who c).log = w.log ++ [(who, c)] := by simp [World.done, (Wrapped.step_log h).1]
  refine ⟨count mark [(who, c)], ⟨[(who, c)], hl, rfl⟩, ?_⟩
  match c with
  | .leaf c =>
    by_cases hc : mark c = true
    · have := hp.weight c hc
      refine ⟨by simp [count, carried], ?_⟩
      simpa [count, hc] using this
    · simp [count, hc]
  | .release _
  | .transfer .. | .transferAll .. | .other .. | .addProxy .. | .removeProxy .. | .removeProxies | .createPure ..
  | .killPure .. | .announce .. | .removeAnnouncement .. | .rejectAnnouncement .. | .approveMulti .. | .cancelMulti ..
  | .proxy .. | .proxyAnnounced .. | .batch .. | .asDerivative .. | .payWithCapacity .. | .payWithCapacityBatchAll ..
  | .multiThreshold1 .. | .multi .. => simp [count]

mutual
/-- Executed calls of the kind are carried by the call, and the weight spent covers them. -/
theorem exec_adds (hp : Priced P mark least) (cfg : Wrapped.Config) (env : TimeRelease.Env) (flt : Filter) (who : AccountId) (c : Call)
    (w w' : World) (h : exec cfg env flt who c w = some w') :
    ∃ n, Adds mark w w' n ∧ n ≤ carried mark c ∧ min (n * least) maxWeight ≤ spent P cfg env flt who c w := by
  rw [exec.eq_def] at h
  rw [spent.eq_def]
  split at h
  · rename_i hf
    rw [if_pos hf]
    match c with
    | .proxy real force c =>
      simp only [Option.bind_eq_bind, Option.bind_eq_some_iff] at h
      obtain ⟨d, hd, h⟩ := h
      split at h
      · cases hx : exec cfg env (fun c => Wrapped.base cfg c && d.filter c) real c w with
        | none =>
          simp only [hx, Option.getD_none, Option.some.injEq] at h
          exact ⟨0, h ▸ .refl w, by simp, by simp⟩
        | some w1 =>
          simp only [hx, Option.getD_some, Option.some.injEq] at h
          subst h
          obtain ⟨n, h1, h2, -⟩ := exec_adds hp cfg env _ real c w w1 hx
          refine ⟨n, h1, h2, ?_⟩
          have := carried_weight hp (.proxy real force c)
          have h3 : n * least ≤ carried mark (.proxy real force c) * least := Nat.mul_le_mul_right _ h2
          simp only
          omega
      · simp at h
    | .proxyAnnounced delegate real force c =>
      simp only [Option.bind_eq_bind, Option.bind_eq_some_iff] at h
      obtain ⟨d, hd, w1, he, h⟩ := h
      have hlog : w1.log = w.log := by rw [(Wrapped.editAnns_some he).2]
      cases hx : exec cfg env (fun c => Wrapped.base cfg c && d.filter c) real c w1 with
      | none =>
        simp only [hx, Option.getD_none, Option.some.injEq] at h
        exact ⟨0, h ▸ .of_log hlog (.refl w1), by simp, by simp⟩
      | some w2 =>
        simp only [hx, Option.getD_some, Option.some.injEq] at h
        subst h
        obtain ⟨n, h1, h2, -⟩ := exec_adds hp cfg env _ real c w1 w2 hx
        refine ⟨n, .of_log hlog h1, h2, ?_⟩
        have := carried_weight hp (.proxyAnnounced delegate real force c)
        have h3 : n * least ≤ carried mark (.proxyAnnounced delegate real force c) * least := Nat.mul_le_mul_right _ h2
        simp only
        omega
    | .batch k calls =>
      obtain ⟨n, h1, h2, h3⟩ := execL_adds hp cfg env k _ who calls w w' h
      exact ⟨n, h1, h2, satAdd_right h3⟩
    | .asDerivative index c =>
      obtain ⟨n, h1, h2, h3⟩ := exec_adds hp cfg env _ _ c w w' h
      exact ⟨n, h1, h2, satAdd_right h3⟩
    | .payWithCapacity c =>
      obtain ⟨n, h1, h2, h3⟩ := exec_adds hp cfg env _ _ c w w' h
      exact ⟨n, h1, h2, h3⟩
    | .payWithCapacityBatchAll calls =>
      simp only at h
      split at h
      · obtain ⟨n, h1, h2, h3⟩ := execL_adds hp cfg env .batchAll _ who calls w w' h
        exact ⟨n, h1, h2, satAdd_right h3⟩
      · simp at h
    | .multiThreshold1 others c =>
      simp only [Option.bind_eq_bind, Option.bind_eq_some_iff] at h
      obtain ⟨all, ha, h⟩ := h
      obtain ⟨n, h1, h2, h3⟩ := exec_adds hp cfg env _ _ c w w' h
      refine ⟨n, h1, h2, ?_⟩
      simp only [ha]
      exact satAdd_right h3
    | .multi threshold others c =>
      simp only [Option.bind_eq_bind, Option.bind_eq_some_iff] at h
      obtain ⟨⟨id, w1, now⟩, ho, h⟩ := h
      have hlog : w1.log = w.log := (Wrapped.operate_frame ho).2.2.2.1
      simp only at h
      split at h
      · rename_i hn
        subst hn
        cases hx : exec cfg env (Wrapped.base cfg) id c w1 with
        | none =>
          simp only [hx, Option.getD_none, Option.some.injEq] at h
          exact ⟨0, h ▸ .of_log hlog (.refl w1), by simp, by simp⟩
        | some w2 =>
          simp only [hx, Option.getD_some, Option.some.injEq] at h
          subst h
          obtain ⟨n, h1, h2, h3⟩ := exec_adds hp cfg env _ id c w1 w2 hx
          refine ⟨n, .of_log hlog h1, h2, ?_⟩
          simp only [ho]
          exact satAdd_right h3
      · exact ⟨0, (Option.some.inj h) ▸ .of_log hlog (.refl w1), by simp, by simp⟩
    | .leaf _ | .release _
    | .transfer .. | .transferAll .. | .other .. | .addProxy .. | .removeProxy .. | .removeProxies | .createPure ..
    | .killPure .. | .announce .. | .removeAnnouncement .. | .rejectAnnouncement .. | .approveMulti ..
    | .cancelMulti .. =>
      simp only [Option.map_eq_some_iff] at h
      obtain ⟨w1, h1, rfl⟩ := h
      obtain ⟨n, h2, h3, h4⟩ := adds_step hp h1
      exact ⟨n, h2, h3, Nat.le_trans (Nat.min_le_left ..) h4⟩
  · simp at h
theorem execL_adds (hp : Priced P mark least) (cfg : Wrapped.Config) (env : TimeRelease.Env) (k : BatchKind) (flt : Filter)
    (who : AccountId) (calls : List Call) (w w' : World) (h : execL cfg env k flt who calls w = some w') :
    ∃ n, Adds mark w w' n ∧ n ≤ carriedL mark calls ∧ min (n * least) maxWeight ≤ spentL P cfg env k flt who calls w := by
  match calls with
  | [] =>
    simp only [execL, Option.some.injEq] at h
    exact ⟨0, h ▸ .refl w, by simp, by simp⟩
  | c :: cs =>
    rw [execL.eq_def] at h
    rw [spentL.eq_def]
    simp only at h ⊢
    cases hx : exec cfg env flt who c w with
    | some w1 =>
      rw [hx] at h
      obtain ⟨n, h1, h2, h3⟩ := exec_adds hp cfg env flt who c w w1 hx
      obtain ⟨m, h4, h5, h6⟩ := execL_adds hp cfg env k flt who cs w1 w' h
      refine ⟨n + m, h1.trans h4, ?_, ?_⟩
      · simp only [carriedL]; omega
      · simp only [Nat.add_mul]; exact satAdd_both h3 h6
    | none =>
      rw [hx] at h
      cases k with
      | batch => exact ⟨0, (Option.some.inj h) ▸ .refl w, by simp, by simp⟩
      | batchAll => simp at h
      | forceBatch =>
        obtain ⟨m, h4, h5, h6⟩ := execL_adds hp cfg env .forceBatch flt who cs w w' h
        exact ⟨m, h4, by simp only [carriedL]; omega, satAdd_right h6⟩
end

/-- Room in the block covers what was executed. -/
theorem room_used {c : Class} {used declared spent used' m : Nat} (h : room c used declared spent = some used')
    (hl : used ≤ normalLimit) (h0 : c ≠ .normal → m = 0) (hw : min (m * least) maxWeight ≤ declared)
    (hs : min (m * least) maxWeight ≤ spent) : used + m * least ≤ used' ∧ used' ≤ normalLimit := by
  unfold room at h
  split at h
  · split at h
    · rename_i hr
      simp only [Option.some.injEq] at h
      subst h
      simp only [normalLimit, maxWeight, base] at *
      omega
    · simp at h
  · rename_i hc
    simp only [Option.some.injEq] at h
    rw [h0 hc, ← h]
    omega

end Verif.Weights
