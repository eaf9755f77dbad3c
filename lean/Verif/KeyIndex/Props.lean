import Verif.KeyIndex.Lemmas
import Verif.Weights.Props
/-!
# The index of keys on the whole chain

C146: no block has more key events than the index can number, and the index shows the keys of the chain.
-/

namespace Verif.KeyIndex

open Verif.Msa (KeyEvent)
open Verif.Wrapped (Call World)
open Verif.Weights (State Prices apply run normalLimit)
open Verif.Offchain (Sys emitted has lastVerdict applyOffchainEvents)

/-! ## Specification -/

/-- The calls executed by an event: what the log of executed calls grew by. -/
def executed (s s' : State) : List (AccountId × Call) := s'.chain.world.log.drop s.chain.world.log.length

/-- Every key deleted by an event belonged to the account that the event of its deletion names. -/
def KeepsOwn (P : Prices) (cfg : Whole.Config) (s : State) (e : Whole.Event) : Prop :=
  Owned (msa s).keyToMsa.get (emitted (msa s) (msa (apply P cfg s e)))

/-- Keys are deleted by transactions for that purpose only, not by calls within other calls. -/
def Plain (P : Prices) (cfg : Whole.Config) (s : State) (e : Whole.Event) : Prop :=
  (∃ t, e = .signed (.submit t) ∧ deletes t.call = true) ∨ NoDelete (executed s (apply P cfg s e))

/-! ## Events of the chain -/

/-- What an event does to key events, keys and the weight used. -/
structure Does (s s' : State) (direct : Prop) : Prop where
  ex : ∃ l es, s'.chain.world.log = s.chain.world.log ++ l ∧ (msa s').events = (msa s).events ++ es ∧
    Follows (msa s).keyToMsa.get es (msa s').keyToMsa.get ∧ (direct ∨ NoDelete l → Owned (msa s).keyToMsa.get es) ∧
    s.used + es.length * least ≤ s'.used
  limit : s'.used ≤ normalLimit

theorem Does.same {s s' : State} (d : Prop) (hl : s'.chain.world.log = s.chain.world.log) (hm : msa s' = msa s)
    (hu : s.used ≤ s'.used) (h : s'.used ≤ normalLimit) : Does s s' d :=
  ⟨⟨[], [], by rw [hl, List.append_nil], by rw [hm, List.append_nil], by rw [hm]; rfl, fun _ => trivial, by simpa using hu⟩, h⟩

/-- Payments do not touch accounts. -/
theorem pays_msa (cfg : Tokens.Config) (p : List Tokens.Step) : ∀ s : Tokens.State,
    (∀ x ∈ p, (∃ k f, x = .charge k f) ∨ (∃ k f, x = .fee k f) ∨ (∃ k f, x = .refund k f)) →
    (Tokens.run cfg s p).chain.msa = s.chain.msa := by
  induction p with
  | nil => intro s _; rfl
  | cons x p ih =>
    intro s hp
    have hx : (Tokens.apply cfg s x).chain.msa = s.chain.msa := by
      rcases hp x (by simp) with ⟨k, f, rfl⟩ | ⟨k, f, rfl⟩ | ⟨k, f, rfl⟩
      · show ((Chain.charge s.chain k f).getD s.chain).msa = _
        simp only [Chain.charge]
        cases Chain.msaOf s.chain k with
        | none => rfl
        | some m => cases hq : (Capacity.withdrawFee s.chain.capacity m f).toOption <;> simp [hq]
      · show ((Tokens.fee cfg s k f).getD s).chain.msa = _
        cases hq : Tokens.fee cfg s k f with
        | none => rfl
        | some t => rw [Option.getD_some, (Wallet.fee_ok hq).1]
      · show ((Tokens.refund s k f).getD s).chain.msa = _
        cases hq : Tokens.refund s k f with
        | none => rfl
        | some t =>
          simp only [Tokens.refund] at hq
          split at hq <;> simp at hq
          subst hq
          rfl
    exact (ih (Tokens.apply cfg s x) (fun y hy => hp y (by simp [hy]))).trans hx

theorem exec_leaf (cfg : Wrapped.Config) (env : TimeRelease.Env) (flt : Wrapped.Filter) (who : AccountId) (c : Chain.Call)
    (w : World) : Wrapped.exec cfg env flt who (.leaf c) w =
      if flt (.leaf c) then (Wrapped.step cfg env who w (.leaf c)).map (fun w => w.done who (.leaf c)) else none := by
  simp only [Wrapped.exec]

/-- The execution of an included transaction. -/
theorem exec_does {P : Prices} {cfg : Whole.Config} {s : State} (hs : s.used ≤ normalLimit)
    {env : TimeRelease.Env} {who : AccountId} {c : Call} {w1 : World} {used declared : Nat}
    (hlog : w1.log = s.chain.world.log) (hm : w1.chain.msa = msa s)
    (hd : ∀ x, min x Weights.maxWeight ≤ Weights.weight P c → min x Weights.maxWeight ≤ declared)
    (hr : Weights.room (Weights.cls P c) s.used declared
      (Weights.spent P cfg.wrapped env (Wrapped.base cfg.wrapped) who c w1) = some used)
    (direct : Prop) (hdir : direct → ∃ k, c = .leaf (.msa (.deleteMsaPublicKey k)) ∧
      (msa s).keyToMsa.get k = (msa s).keyToMsa.get who)
    (s' : State) (hl' : s'.chain.world.log =
      ((Wrapped.exec cfg.wrapped env (Wrapped.base cfg.wrapped) who c w1).getD w1).log)
    (hm' : msa s' = ((Wrapped.exec cfg.wrapped env (Wrapped.base cfg.wrapped) who c w1).getD w1).chain.msa)
    (hu' : s'.used = used) : Does s s' direct := by
  cases hx : Wrapped.exec cfg.wrapped env (Wrapped.base cfg.wrapped) who c w1 with
  | none =>
    rw [hx] at hl' hm'
    have := Weights.room_used (least := least) (m := 0) hr hs (fun _ => rfl) (by simp) (by simp)
    exact Does.same _ (hl'.trans hlog) (hm'.trans hm) (by omega) (by omega)
  | some w2 =>
    rw [hx, Option.getD_some] at hl' hm'
    obtain ⟨l, es, g1, g2, g3, g4, g5⟩ := (goes_guarded cfg.wrapped env w1).exec _ _ _ _ _ trivial (Goes.refl w1) hx
    obtain ⟨m, ⟨k', h1, h2⟩, h3, h4⟩ := Weights.exec_adds (key_priced P) cfg.wrapped env _ who c w1 w2 hx
    obtain rfl : l = k' := List.append_cancel_left (g1.symm.trans h1)
    have hru : s.used + m * least ≤ used ∧ used ≤ normalLimit := by
      refine Weights.room_used hr hs (fun hc => ?_) ?_ h4
      · have := Weights.carried_normal (key_priced P) c hc
        omega
      · refine hd _ ?_
        exact Nat.le_trans (min_le_min_right _ (Nat.mul_le_mul_right _ h3)) (Weights.carried_weight (key_priced P) c)
    refine ⟨⟨l, es, by rw [hl', g1, hlog], by rw [hm', g2, hm], by rw [hm', ← hm]; exact g4, ?_, ?_⟩, by omega⟩
    · rintro (hdd | hn)
      · obtain ⟨k, rfl, hk⟩ := hdir hdd
        rw [exec_leaf] at hx
        split at hx
        · simp only [Option.map_eq_some_iff] at hx
          obtain ⟨w3, hx, rfl⟩ := hx
          obtain ⟨es', q1, -, -, -, q5⟩ := step_events hx
          have : es' = es := List.append_cancel_left (q1.symm.trans g2)
          rw [← hm, ← this]
          exact q5 k rfl (by rw [hm]; exact hk)
        · simp at hx
      · rw [← hm]; exact g5 hn
    · have : es.length * least ≤ m * least := Nat.mul_le_mul_right _ (by omega)
      omega

/-- Everything but a new block. -/
theorem apply_does (P : Prices) (cfg : Whole.Config) (s : State) (hs : s.used ≤ normalLimit) (e : Whole.Event)
    (he : e ≠ .signed .newBlock) :
    Does s (apply P cfg s e) (∃ t, e = .signed (.submit t) ∧ deletes t.call = true) := by
  have step : ∀ (x : Tokens.Step) (d : Prop), (∀ y, Wrapped.ChainOf x y →
      ∀ s0, (Chain.apply cfg.wrapped.chain s0 y).msa.events = s0.msa.events ∧
        (Chain.apply cfg.wrapped.chain s0 y).msa.keyToMsa.get = s0.msa.keyToMsa.get) →
      Does s ⟨Whole.onTokens cfg s.chain x, s.used⟩ d := by
    intro x d hx
    rcases Wrapped.apply_chain cfg.wrapped.wallet.tokens s.chain.world.tokens x with e | ⟨y, hy, e⟩
    · exact Does.same _ rfl (congrArg Chain.State.msa e) (Nat.le_refl _) hs
    · obtain ⟨h1, h2⟩ := hx y hy s.chain.world.chain
      have e' : msa ⟨Whole.onTokens cfg s.chain x, s.used⟩ =
        (Chain.apply cfg.wrapped.chain s.chain.world.chain y).msa := congrArg Chain.State.msa e
      refine ⟨⟨[], [], by simp [Whole.onTokens], ?_, ?_, fun _ => trivial, by simp⟩, hs⟩
      · rw [e', h1, List.append_nil]; rfl
      · rw [e', h2]; rfl
  match e with
  | .signed (.submit t) =>
    simp only [apply, Weights.submit]
    split
    · exact Does.same _ rfl rfl (Nat.le_refl _) hs
    · rename_i s1 hs1
      split
      · exact Does.same _ rfl rfl (Nat.le_refl _) hs
      · rename_i used hr
        obtain ⟨-, hp, hw⟩ := Wrapped.takeIn_some hs1
        obtain ⟨p, hpp, hpr⟩ := Wrapped.pay_steps hp
        have hm : s1.world.chain.msa = msa s := by
          show s1.world.tokens.chain.msa = _
          rw [hpr]
          refine pays_msa _ _ _ (fun x hx => ?_)
          rcases hpp with rfl | ⟨f, rfl⟩ | rfl
          · simp at hx
          · exact .inl ⟨_, _, List.mem_singleton.1 hx⟩
          · exact .inr (.inl ⟨_, _, List.mem_singleton.1 hx⟩)
        have hsub : Wrapped.submit cfg.wrapped s.chain t =
            ⟨{ (Wrapped.exec cfg.wrapped t.env (Wrapped.base cfg.wrapped) t.who t.call s1.world).getD s1.world with
              tokens := Wrapped.settle ((Wrapped.exec cfg.wrapped t.env (Wrapped.base cfg.wrapped) t.who t.call
                s1.world).getD s1.world).tokens t },
              Wrapped.forget s1.world.tokens (Wrapped.settle ((Wrapped.exec cfg.wrapped t.env (Wrapped.base cfg.wrapped)
                t.who t.call s1.world).getD s1.world).tokens t) s1.nonces⟩ := by
          simp only [Wrapped.submit, hs1]
        refine exec_does (P := P) (cfg := cfg) hs (by rw [hw]) hm (fun _ h => h) hr _ ?_ _ (by rw [hsub]) ?_ rfl
        · rintro ⟨t', ht, hc⟩
          cases ht
          obtain ⟨k, hc⟩ : ∃ k, t.call = .leaf (.msa (.deleteMsaPublicKey k)) := by
            unfold deletes at hc
            split at hc
            · rename_i k hk; exact ⟨k, hk⟩
            · simp at hc
          refine ⟨k, hc, ?_⟩
          have hext : Wrapped.extensions cfg.wrapped s1.world.tokens.chain t.who t.call = true := by
            unfold Wrapped.takeIn at hs1
            simp only [Option.bind_eq_bind, Option.bind_eq_some_iff] at hs1
            obtain ⟨a, ha, ch, hc', h⟩ := hs1
            split at h
            · rename_i hh
              simp only [Option.some.injEq] at h
              rw [← h]
              exact hh
            · simp at h
          rw [hc] at hext
          simp only [Wrapped.extensions, Chain.extensions, Msa.validate] at hext
          cases hv : Msa.validateKeyDelete s1.world.tokens.chain.msa t.who k with
          | error e => rw [hv] at hext; simp [Except.isOk, Except.toBool] at hext
          | ok u =>
            obtain ⟨-, m, q1, q2⟩ := Msa.validateKeyDelete_ok hv
            have hm' : s1.world.tokens.chain.msa = msa s := hm
            rw [hm'] at q1 q2
            rw [q1, q2]
        · show (Wrapped.submit cfg.wrapped s.chain t).world.tokens.chain.msa = _
          rw [hsub]
          obtain ⟨b, hbb, hbr⟩ := Wrapped.settle_steps cfg.wrapped
            ((Wrapped.exec cfg.wrapped t.env (Wrapped.base cfg.wrapped) t.who t.call s1.world).getD s1.world).tokens t
          show (Wrapped.settle _ t).chain.msa = _
          rw [hbr]
          refine pays_msa _ _ _ (fun x hx => ?_)
          rcases hbb with rfl | rfl
          · simp at hx
          · exact .inr (.inr ⟨_, _, List.mem_singleton.1 hx⟩)
  | .passkey env fee p =>
    simp only [apply, Weights.passkey]
    split
    · exact Does.same _ rfl rfl (Nat.le_refl _) hs
    · rename_i s1 hs1
      split
      · exact Does.same _ rfl rfl (Nat.le_refl _) hs
      · rename_i used hr
        have hs' := hs1
        unfold Whole.preDispatch at hs1
        split at hs1
        · simp at hs1
        split at hs1
        · split at hs1
          · simp only [Option.bind_eq_bind, Option.bind_eq_some_iff] at hs1
            obtain ⟨nn, -, tk, htk, hs1⟩ := hs1
            simp only [Option.some.injEq] at hs1
            have hch : tk.chain = s.chain.world.tokens.chain := by rw [(Wallet.fee_ok htk).1]
            refine exec_does (P := P) (cfg := cfg) hs (w1 := s1.world) (by rw [← hs1]) ?_
              (fun _ h => Weights.satAdd_right h) hr _ ?_ _ ?_ ?_ rfl
            · rw [← hs1]
              show tk.chain.msa = _
              rw [hch]
              rfl
            · rintro ⟨_, h, _⟩
              cases h
            · simp only [Whole.passkey, hs']
            · simp only [Whole.passkey, hs', msa]
          · simp at hs1
        · simp at hs1
  | .signed .newBlock => exact absurd rfl he
  | .signed (.tick m) =>
    refine step (.tick m) _ ?_
    rintro y ⟨⟩
  | .council c =>
    refine step (.call .council c) _ ?_
    rintro y hy s0
    cases hy with
    | call bal o c =>
      simp only [Chain.apply]
      cases hd : Chain.dispatch cfg.wrapped.chain bal s0 .council c with
      | none => exact ⟨rfl, rfl⟩
      | some s1 =>
        obtain ⟨es, h1, -, h2, h3, -⟩ := dispatch_events hd
        rw [h2 rfl] at h1 h3
        exact ⟨by simpa using h1, h3⟩
  | .root env c =>
    refine step (.release env none c) _ ?_
    rintro y ⟨⟩
  | .upgrade known =>
    refine step (.upgrade known) _ ?_
    rintro y hy s0
    cases hy
    exact ⟨rfl, rfl⟩

theorem newBlock_msa (P : Prices) (cfg : Whole.Config) (s : State) :
    msa (apply P cfg s (.signed .newBlock)) = msa s ∧ (apply P cfg s (.signed .newBlock)).used = 0 := ⟨rfl, rfl⟩

theorem used_limit (P : Prices) (cfg : Whole.Config) (s : State) (hs : s.used ≤ normalLimit) (e : Whole.Event) :
    (apply P cfg s e).used ≤ normalLimit := by
  by_cases he : e = .signed .newBlock
  · subst he; exact Nat.zero_le _
  · exact (apply_does P cfg s hs e he).limit

theorem run_limit (P : Prices) (cfg : Whole.Config) (h : List Whole.Event) : ∀ s : State, s.used ≤ normalLimit →
    (run P cfg s h).used ≤ normalLimit := by
  induction h with
  | nil => intro s hs; exact hs
  | cons e h ih => intro s hs; exact ih _ (used_limit P cfg s hs e)

theorem run_events (P : Prices) (cfg : Whole.Config) (h : List Whole.Event) : ∀ s : State, s.used ≤ normalLimit →
    .signed .newBlock ∉ h → ∃ es, (msa (run P cfg s h)).events = (msa s).events ++ es ∧
      s.used + es.length * least ≤ (run P cfg s h).used := by
  induction h with
  | nil => intro s _ _; exact ⟨[], by simp [run], by simp [run]⟩
  | cons e h ih =>
    intro s hs hn
    have hd := apply_does P cfg s hs e (fun q => hn (by simp [q]))
    obtain ⟨l, es, -, h1, -, -, h2⟩ := hd.ex
    obtain ⟨es', h3, h4⟩ := ih (apply P cfg s e) hd.limit (fun q => hn (by simp [q]))
    refine ⟨es ++ es', ?_, ?_⟩
    · show (msa (run P cfg (apply P cfg s e) h)).events = _
      rw [h3, h1, List.append_assoc]
    · show _ ≤ (run P cfg (apply P cfg s e) h).used
      rw [List.length_append, Nat.add_mul]
      omega

/-! ## Nodes -/

theorem indexAll_count (b : Nat) (es : List KeyEvent) : ∀ x, (Offchain.indexAll b es x).2 ≤ x.2 + es.length := by
  induction es with
  | nil => intro x; exact Nat.le_refl _
  | cons e es ih =>
    intro x
    refine Nat.le_trans (ih _) ?_
    have : (Offchain.indexEvent x.1 b x.2 e).2 ≤ x.2 + 1 := by
      exact Nat.min_le_left ..
    rw [List.length_cons]
    omega

/-- What holds on a node. -/
structure Good (n : Node) : Prop where
  inv : Offchain.Inv n.sys
  chain : n.sys.chain = msa n.chain
  count : n.sys.count * least ≤ n.chain.used
  limit : n.chain.used ≤ normalLimit

theorem Good.event {P : Prices} {cfg : Whole.Config} {n : Node} (h : Good n) (e : Whole.Event)
    (ho : KeepsOwn P cfg n.chain e) : Good (n.event P cfg e) := by
  by_cases he : e = .signed .newBlock
  · subst he
    have : n.event P cfg (.signed .newBlock) = ⟨apply P cfg n.chain (.signed .newBlock), n.sys.next⟩ := by
      have : n.sys.next = { n.sys.next with chain := msa (apply P cfg n.chain (.signed .newBlock)) } := by
        rw [(newBlock_msa P cfg n.chain).1, ← h.chain]
        rfl
      rw [this]
      rfl
    rw [this]
    exact ⟨Offchain.inv_next h.inv, h.chain, by simp [Sys.next], Nat.zero_le _⟩
  · have : n.event P cfg e = ⟨apply P cfg n.chain e, n.sys.becomes (msa (apply P cfg n.chain e))⟩ := by
      unfold Node.event
      split
      · exact absurd rfl he
      · rfl
    rw [this]
    have hd := apply_does P cfg n.chain h.limit e he
    obtain ⟨l, es, -, h1, h2, -, h4⟩ := hd.ex
    have hem : emitted n.sys.chain (msa (apply P cfg n.chain e)) = es := by
      rw [h.chain]; exact Offchain.emitted_append _ _ _ h1
    have hc := h.count
    have hl := hd.limit
    have hlen : (n.sys.count + es.length) * least ≤ (apply P cfg n.chain e).used := by rw [Nat.add_mul]; omega
    unfold KeepsOwn at ho
    rw [← h.chain, hem] at ho
    refine ⟨Offchain.inv_becomes h.inv ?_ ?_, rfl, ?_, hl⟩
    · rw [hem]
      simp only [least, normalLimit] at hlen hl
      omega
    · intro m k
      rw [hem]
      rw [← h.chain] at h2
      exact follows_has m k h2 ho
    · refine Nat.le_trans (Nat.mul_le_mul_right _ ?_) hlen
      have := indexAll_count n.sys.now es (n.sys.db, n.sys.count)
      show (Offchain.indexAll n.sys.now (emitted n.sys.chain _) (n.sys.db, n.sys.count)).2 ≤ _
      rw [hem]
      exact this

theorem reach_good {P : Prices} {cfg : Whole.Config} {G : State → Whole.Event → Prop}
    (hG : ∀ s e, s.used ≤ normalLimit → G s e → KeepsOwn P cfg s e) {n : Node} (h : Reach P cfg G n) : Good n := by
  induction h with
  | init maxBytes ledger clears => exact ⟨Offchain.inv_init clears, rfl, by simp [Node.init, Sys.init], Nat.zero_le _⟩
  | event e _ hg ih => exact ih.event e (hG _ _ ih.limit hg)
  | initial accounts f b hf hfb hb hacc hi hl hk _ ih =>
    exact ⟨Offchain.inv_initial ih.inv accounts f b hf hfb hb hacc hi hk, ih.chain, ih.count, ih.limit⟩
  | work lp j hi hl hn _ ih => exact ⟨Offchain.inv_work ih.inv lp j hi hl hn, ih.chain, ih.count, ih.limit⟩

theorem plain_keepsOwn {P : Prices} {cfg : Whole.Config} {s : State} {e : Whole.Event} (hs : s.used ≤ normalLimit)
    (h : Plain P cfg s e) : KeepsOwn P cfg s e := by
  by_cases he : e = .signed .newBlock
  · subst he
    unfold KeepsOwn
    rw [(newBlock_msa P cfg s).1, Offchain.emitted_append _ [] _ (by simp)]
    trivial
  · obtain ⟨l, es, h0, h1, -, h3, -⟩ := (apply_does P cfg s hs e he).ex
    unfold KeepsOwn
    rw [Offchain.emitted_append _ _ _ h1]
    refine h3 (h.imp id (fun hn => ?_))
    rwa [executed, h0, List.drop_left] at hn

/-! ## C146 -/

/-- C146, first part: however calls are wrapped and whoever signs, no block has more than 1,393 key events. -/
theorem C146_few (P : Prices) (cfg : Whole.Config) (maxBytes : Nat) (ledger : TimeRelease.State)
    (h block : List Whole.Event) (hb : .signed .newBlock ∉ block) :
    let s := run P cfg (Weights.genesis maxBytes ledger) h
    (emitted (msa s) (msa (run P cfg s block))).length ≤ 1393 := by
  intro s
  have hs : s.used ≤ normalLimit := run_limit P cfg h _ (Nat.zero_le _)
  obtain ⟨es, h1, h2⟩ := run_events P cfg block s hs hb
  have h3 := run_limit P cfg block s hs
  rw [Offchain.emitted_append _ _ _ h1]
  simp only [least, normalLimit] at h2 h3
  omega

/-- C146 in full: after a completed run of the worker for finalized block `f`, on a node that follows the chain through
whatever happens, the index shows for every account the keys that it had at the end of block `f`. -/
def C146_full : Prop :=
  ∀ (P : Prices) (cfg : Whole.Config) (n : Node), Reach P cfg (fun _ _ => True) n →
    n.sys.db.indexed = true → ∀ f lp, n.sys.db.last = some lp → lp < f → f < n.sys.now → n.sys.since ≤ f →
    ∀ m k, k ∈ (applyOffchainEvents (fun _ => true) n.sys.db f).keysOf m ↔ n.sys.hist f k = some m

/-- C146, second part, if every key that is deleted belonged to the account that deletes it. -/
theorem C146_index_partial (P : Prices) (cfg : Whole.Config) (n : Node) (hr : Reach P cfg (KeepsOwn P cfg) n)
    (hi : n.sys.db.indexed = true) (f lp : Nat) (hl : n.sys.db.last = some lp) (hlf : lp < f) (hf : f < n.sys.now)
    (hs : n.sys.since ≤ f) (m : MsaId) (k : AccountId) :
    k ∈ (applyOffchainEvents (fun _ => true) n.sys.db f).keysOf m ↔ n.sys.hist f k = some m :=
  Offchain.inv_index (reach_good (fun _ _ _ h => h) hr).inv hi f lp hl hlf hf hs m k

/-- C146, second part, if no call within another call deletes a key. -/
theorem C146_index_direct_partial (P : Prices) (cfg : Whole.Config) (n : Node) (hr : Reach P cfg (Plain P cfg) n)
    (hi : n.sys.db.indexed = true) (f lp : Nat) (hl : n.sys.db.last = some lp) (hlf : lp < f) (hf : f < n.sys.now)
    (hs : n.sys.since ≤ f) (m : MsaId) (k : AccountId) :
    k ∈ (applyOffchainEvents (fun _ => true) n.sys.db f).keysOf m ↔ n.sys.hist f k = some m :=
  Offchain.inv_index (reach_good (fun _ _ hs h => plain_keepsOwn hs h) hr).inv hi f lp hl hlf hf hs m k

/-! ## A concrete chain -/

/-- A transaction of any key. -/
def exBy (who : AccountId) (nonce : Nat) (c : Call) : Whole.Event := .signed (.submit ⟨who, nonce, c, 100, 0, 0, Wallet.exEnv⟩)

/-- Several events. -/
def Node.events (P : Prices) (cfg : Whole.Config) (n : Node) (h : List Whole.Event) : Node := h.foldl (Node.event P cfg) n

/-- The restriction for every event of a history. -/
def Allowed (P : Prices) (cfg : Whole.Config) (G : State → Whole.Event → Prop) : State → List Whole.Event → Prop
  | _, [] => True
  | s, e :: h => G s e ∧ Allowed P cfg G (apply P cfg s e) h

theorem event_chain (P : Prices) (cfg : Whole.Config) (n : Node) (e : Whole.Event) :
    (n.event P cfg e).chain = apply P cfg n.chain e := by
  unfold Node.event
  split <;> rfl

theorem reach_events {P : Prices} {cfg : Whole.Config} {G : State → Whole.Event → Prop} (h : List Whole.Event) :
    ∀ {n : Node}, Reach P cfg G n → Allowed P cfg G n.chain h → Reach P cfg G (n.events P cfg h) := by
  induction h with
  | nil => intro n hr _; exact hr
  | cons e h ih =>
    intro n hr ha
    exact ih (hr.event e ha.1) (by rw [event_chain]; exact ha.2)

theorem allowed_true (P : Prices) (cfg : Whole.Config) (h : List Whole.Event) :
    ∀ s, Allowed P cfg (fun _ _ => True) s h := by
  induction h with
  | nil => intro _; trivial
  | cons e h ih => intro s; exact ⟨trivial, ih _⟩

/-- Two empty blocks; the worker has completed the initial indexing, of nothing. -/
def exEmpty : Node :=
  let n := (Node.init 1024 Wrapped.exLedger true).events Weights.exPrices Whole.exCfg [.signed .newBlock, .signed .newBlock]
  { n with sys := { n.sys with db := Offchain.initialIndex [] 1 none n.sys.db, since := 1, clean := true } }

theorem exEmpty_reach (G : State → Whole.Event → Prop) (hG : ∀ s, G s (.signed .newBlock)) :
    Reach Weights.exPrices Whole.exCfg G exEmpty := by
  refine .initial [] 1 1 (by decide) (by decide) (by decide +kernel) ?_ rfl rfl rfl
    (reach_events _ (.init 1024 Wrapped.exLedger true) ⟨hG _, hG _, trivial⟩)
  intro k m
  show (k, m) ∈ [] ↔ (none : Option MsaId) = some m
  simp

/-- Keys 20 and 30 get an account each, 1 and 2. In the next block key 20 deletes key 30, which is not of its account, in
a batch with a remark. -/
def exForeign : List Whole.Event :=
  [exBy 20 0 (.leaf (.msa .create)), exBy 30 0 (.leaf (.msa .create)), .signed .newBlock,
   exBy 20 1 (.batch .batch [.other .remark 0, .leaf (.msa (.deleteMsaPublicKey 30))]), .signed .newBlock]

/-- C146 is false of the code. The index keeps key 30 in the list of account 2, although it has no account any more. -/
theorem C146_full_false : ¬ C146_full := by
  intro h
  have hr : Reach Weights.exPrices Whole.exCfg (fun _ _ => True) (exEmpty.events Weights.exPrices Whole.exCfg exForeign) :=
    reach_events _ (exEmpty_reach _ (fun _ => trivial)) (allowed_true ..)
  have := (h _ _ _ hr (by decide +kernel) 3 0 (by decide +kernel) (by decide +kernel) (by decide +kernel)
    (by decide +kernel) 2 30).1 (by decide +kernel)
  revert this
  decide +kernel

instance (l : List (AccountId × Call)) : Decidable (NoDelete l) := by unfold NoDelete; infer_instance

/-- Key 30 gets an account, and in a batch key 20, which adds key 21 to it. In the next block key 30 cannot delete key 21,
key 21 deletes key 20, and key 30 retires its account. -/
def exDirect : List Whole.Event :=
  [exBy 30 0 (.leaf (.msa .create)),
   exBy 20 0 (.batch .batchAll [.leaf (.msa .create), .leaf (.msa (.addPublicKeyToMsa 20 20 21 ⟨2, 50, 21⟩))]),
   .signed .newBlock, exBy 30 1 (.leaf (.msa (.deleteMsaPublicKey 21))),
   exBy 21 0 (.leaf (.msa (.deleteMsaPublicKey 20))), exBy 30 1 (.leaf (.msa .retireMsa)), .signed .newBlock]

theorem exDirect_plain : Allowed Weights.exPrices Whole.exCfg (Plain Weights.exPrices Whole.exCfg) exEmpty.chain exDirect := by
  refine ⟨.inr ?_, .inr ?_, .inr ?_, .inl ⟨_, rfl, rfl⟩, .inl ⟨_, rfl, rfl⟩, .inr ?_, .inr ?_, trivial⟩ <;> decide +kernel

/-- Hypotheses met: with the index complete for block 2, the worker runs for block 3. In both blocks keys join and leave. -/
example :
    let n := exEmpty.events Weights.exPrices Whole.exCfg exDirect
    Reach Weights.exPrices Whole.exCfg (Plain Weights.exPrices Whole.exCfg) n ∧
    n.sys.db.indexed = true ∧ n.sys.db.last = some 0 ∧ 3 < n.sys.now ∧ n.sys.since ≤ 2 ∧
    ([1, 2].map (fun m => (applyOffchainEvents (fun _ => true) n.sys.db 2).keysOf m)) = [[30], [20, 21]] ∧
    ([1, 2].map (fun m => (applyOffchainEvents (fun _ => true) n.sys.db 3).keysOf m)) = [[], [21]] ∧
    ([20, 21, 30].map (n.sys.hist 2)) = [some 2, some 2, some 1] ∧
    ([20, 21, 30].map (n.sys.hist 3)) = [none, some 2, none] := by
  refine ⟨reach_events _ (exEmpty_reach _ (fun s => .inr ?_)) exDirect_plain, by decide +kernel, by decide +kernel,
    by decide +kernel, by decide +kernel, by decide +kernel, by decide +kernel, by decide +kernel, by decide +kernel⟩
  have : executed s (apply Weights.exPrices Whole.exCfg s (.signed .newBlock)) = [] := by
    simp [executed, apply, Whole.apply, Wrapped.apply]
  rw [this]
  exact fun _ h => absurd h (by simp)

/-- Three key events in a block, as many as its calls. -/
example : (emitted (msa exEmpty.chain)
    (msa (run Weights.exPrices Whole.exCfg exEmpty.chain (exDirect.take 2)))).length = 3 := by decide +kernel

end Verif.KeyIndex
