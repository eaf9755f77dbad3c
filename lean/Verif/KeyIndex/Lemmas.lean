import Verif.KeyIndex.Model
import Verif.Weights.Lemmas
import Verif.Chain.Lemmas
import Verif.Wrapped.Ledger
/-!
# Key events of executed calls
-/

namespace Verif.KeyIndex

open Verif.Msa (KeyEvent)
open Verif.Wrapped (Call World)
open Verif.Weights (count)
open Verif.Offchain (emitted has lastVerdict verdict)

/-- Which account each key belongs to. -/
abbrev Keys := AccountId → Option MsaId

/-- A change at one key. -/
def put (h : Keys) (k : AccountId) (m : Option MsaId) : Keys := fun x => if k = x then m else h x

/-- Key events lead from keys to keys: keys that join are new, keys that leave are there. -/
def Follows : Keys → List KeyEvent → Keys → Prop
  | h, [], h' => h' = h
  | h, .created m k :: es, h' => h k = none ∧ Follows (put h k (some m)) es h'
  | h, .added m k :: es, h' => h k = none ∧ Follows (put h k (some m)) es h'
  | h, .deleted _ k :: es, h' => (h k).isSome = true ∧ Follows (put h k none) es h'

/-- Every key that leaves belonged to the account named in the event. -/
def Owned : Keys → List KeyEvent → Prop
  | _, [] => True
  | h, .created m k :: es => Owned (put h k (some m)) es
  | h, .added m k :: es => Owned (put h k (some m)) es
  | h, .deleted m k :: es => h k = some m ∧ Owned (put h k none) es

theorem Follows.append {es es' : List KeyEvent} : ∀ {h h' h'' : Keys}, Follows h es h' → Follows h' es' h'' →
    Follows h (es ++ es') h'' := by
  induction es with
  | nil => intro h h' h'' h1 h2; cases h1; exact h2
  | cons e es ih =>
    intro h h' h'' h1 h2
    cases e <;> exact ⟨h1.1, ih h1.2 h2⟩

theorem Owned.append {es es' : List KeyEvent} : ∀ {h h' : Keys}, Owned h es → Follows h es h' → Owned h' es' →
    Owned h (es ++ es') := by
  induction es with
  | nil => intro h h' _ h1 h2; cases h1; exact h2
  | cons e es ih =>
    intro h h' h1 h2 h3
    cases e with
    | deleted m k => exact ⟨h1.1, ih h1.2 h2.2 h3⟩
    | created m k => exact ih (h := put h k (some m)) h1 h2.2 h3
    | added m k => exact ih (h := put h k (some m)) h1 h2.2 h3

/-- Owned events tell what the keys of every account are. -/
theorem follows_has {es : List KeyEvent} (m : MsaId) (k : AccountId) : ∀ {h h' : Keys}, Follows h es h' → Owned h es →
    has h' m k = (lastVerdict m k es).getD (has h m k) := by
  induction es with
  | nil => intro h h' h1 _; cases h1; rfl
  | cons e es ih =>
    intro h h' h1 h2
    have join : ∀ m' k', h k' = none → Follows (put h k' (some m')) es h' → Owned (put h k' (some m')) es →
        verdict m k e = (if m' = m ∧ k' = k then some true else none) →
        has h' m k = (lastVerdict m k (e :: es)).getD (has h m k) := by
      intro m' k' h0 h1 h2 hv
      rw [ih h1 h2]
      simp only [lastVerdict, hv]
      cases lastVerdict m k es with
      | some x => rfl
      | none =>
        simp only [Option.getD_none, has, put]
        by_cases hk : k' = k
        · subst hk
          by_cases hm : m' = m
          · simp [hm]
          · simp [hm, h0]
        · simp [hk]
    cases e with
    | created m' k' => exact join m' k' h1.1 h1.2 h2 rfl
    | added m' k' => exact join m' k' h1.1 h1.2 h2 rfl
    | deleted m' k' =>
      rw [ih h1.2 h2.2]
      simp only [lastVerdict, verdict]
      cases lastVerdict m k es with
      | some x => rfl
      | none =>
        simp only [Option.getD_none, has, put]
        by_cases hk : k' = k
        · subst hk
          by_cases hm : m' = m
          · simp [hm]
          · simp [hm, h2.1]
        · simp [hk]

/-- Calls that can emit a key event. -/
def isKeyCall : Chain.Call → Bool
  | .msa .create | .msa (.createSponsoredAccountWithDelegation ..) | .msa (.addPublicKeyToMsa ..)
  | .msa (.deleteMsaPublicKey _) | .msa .retireMsa => true
  | _ => false

/-- The least weight of such a call. -/
def least : Nat := 269_128_000

theorem key_priced (P : Weights.Prices) : Weights.Priced P isKeyCall least where
  weight c hc := by
    cases c with
    | msa c =>
      rw [Weights.weight]
      cases c <;> simp [isKeyCall] at hc <;>
        simp only [Weights.account, Weights.satAdd, Weights.reads, Weights.writes, Weights.maxWeight, least] <;> omega
    | _ => simp [isKeyCall] at hc
  normal c hc := by
    cases c with
    | msa c => rw [Weights.cls]
    | _ => simp [isKeyCall] at hc

/-- What a call of the pallet does to events and keys. -/
theorem eff_events {cfg : Msa.Config} {env : Msa.Env} {s s' : Msa.State} {o : Msa.Origin} {c : Msa.Call}
    (h : Msa.Eff cfg env s o c s') :
    ∃ es, s'.events = s.events ++ es ∧ es.length ≤ (if isKeyCall (.msa c) then 1 else 0) ∧
      ((∀ who, o ≠ .signed who) → es = []) ∧
      Follows s.keyToMsa.get es s'.keyToMsa.get ∧ ((∀ k, c ≠ .deleteMsaPublicKey k) → Owned s.keyToMsa.get es) ∧
      (∀ who k, o = .signed who → c = .deleteMsaPublicKey k → s.keyToMsa.get k = s.keyToMsa.get who →
        Owned s.keyToMsa.get es) := by
  have none : ∀ s' : Msa.State, s'.events = s.events → s'.keyToMsa = s.keyToMsa →
      ∃ es, s'.events = s.events ++ es ∧ es.length ≤ (if isKeyCall (.msa c) then 1 else 0) ∧
        ((∀ who, o ≠ .signed who) → es = []) ∧
        Follows s.keyToMsa.get es s'.keyToMsa.get ∧ ((∀ k, c ≠ .deleteMsaPublicKey k) → Owned s.keyToMsa.get es) ∧
        (∀ who k, o = .signed who → c = .deleteMsaPublicKey k → s.keyToMsa.get k = s.keyToMsa.get who →
          Owned s.keyToMsa.get es) := by
    intro s' h1 h2
    exact ⟨[], by rw [h1, List.append_nil], Nat.zero_le _, fun _ => rfl, by rw [h2]; rfl, fun _ => trivial,
      fun _ _ _ _ _ => trivial⟩
  have get : ∀ (m : MsaId) (k : AccountId), (Msa.withKey s m k).keyToMsa.get = put s.keyToMsa.get k (some m) := by
    intro m k; funext x; exact Msa.withKey_get ..
  cases h with
  | noop => exact none _ rfl rfl
  | provider => exact none _ rfl rfl
  | grant => exact none _ rfl rfl
  | revoke => exact none _ rfl rfl
  | revokeSchemas => exact none _ rfl rfl
  | create hid hk hc =>
    exact ⟨_, rfl, by simp [isKeyCall], fun h => absurd rfl (h _), ⟨hk, get ..⟩, fun _ => trivial, fun _ _ _ _ _ => trivial⟩
  | sponsored hv hr hw hp hid hk hc hn hd hl hs =>
    exact ⟨_, rfl, by simp [isKeyCall], fun h => absurd rfl (h _), ⟨hk, get ..⟩, fun _ => trivial, fun _ _ _ _ _ => trivial⟩
  | addKey hv1 hv2 hr1 hr2 ho hk hc =>
    exact ⟨_, rfl, by simp [isKeyCall], fun h => absurd rfl (h _), ⟨hk, get ..⟩, fun _ => trivial, fun _ _ _ _ _ => trivial⟩
  | @delete who c m k m' hw hk hc =>
    refine ⟨[.deleted m k], rfl, ?_, fun h => absurd rfl (h _), ⟨by rw [hk]; rfl, ?_⟩, ?_, ?_⟩
    · rcases hc with rfl | ⟨rfl, rfl⟩ <;> simp [isKeyCall]
    · funext x; exact Msa.withoutKey_get s m k x
    · intro hn
      rcases hc with rfl | ⟨rfl, rfl⟩
      · exact absurd rfl (hn k)
      · exact ⟨hw, trivial⟩
    · intro who' k' ho hck he
      cases ho
      rcases hc with rfl | ⟨rfl, rfl⟩
      · cases hck
        exact ⟨by rw [he, hw], trivial⟩
      · cases hck

/-- The same for a call of the chain. -/
theorem dispatch_events {cfg : Chain.Config} {bal : AccountId → Balance} {s s' : Chain.State} {o : Chain.Origin}
    {c : Chain.Call} (h : Chain.dispatch cfg bal s o c = some s') :
    ∃ es, s'.msa.events = s.msa.events ++ es ∧ es.length ≤ (if isKeyCall c then 1 else 0) ∧ (o = .council → es = []) ∧
      Follows s.msa.keyToMsa.get es s'.msa.keyToMsa.get ∧
      ((∀ k, c ≠ .msa (.deleteMsaPublicKey k)) → Owned s.msa.keyToMsa.get es) ∧
      (∀ who k, o = .signed who → c = .msa (.deleteMsaPublicKey k) →
        s.msa.keyToMsa.get k = s.msa.keyToMsa.get who → Owned s.msa.keyToMsa.get es) := by
  have same : ∀ s' : Chain.State, s'.msa = s.msa → ∃ es, s'.msa.events = s.msa.events ++ es ∧
      es.length ≤ (if isKeyCall c then 1 else 0) ∧ (o = .council → es = []) ∧
      Follows s.msa.keyToMsa.get es s'.msa.keyToMsa.get ∧
      ((∀ k, c ≠ .msa (.deleteMsaPublicKey k)) → Owned s.msa.keyToMsa.get es) ∧
      (∀ who k, o = .signed who → c = .msa (.deleteMsaPublicKey k) →
        s.msa.keyToMsa.get k = s.msa.keyToMsa.get who → Owned s.msa.keyToMsa.get es) := by
    intro s' e
    exact ⟨[], by rw [e, List.append_nil], Nat.zero_le _, fun _ => rfl, by rw [e]; rfl, fun _ => trivial,
      fun _ _ _ _ _ => trivial⟩
  cases Chain.dispatch_called h with
  | msa hd =>
    obtain ⟨es, h1, h2, h3, h4, h5, h6⟩ := eff_events (Msa.eff_of_dispatch hd)
    refine ⟨es, h1, h2, ?_, h4, fun hn => h5 (fun k e => hn k (by rw [e])), ?_⟩
    · rintro rfl; exact h3 (by simp [Chain.Origin.msa])
    · rintro who k rfl e
      exact h6 who k rfl (by simpa using e)
  | _ => exact same _ rfl

/-- Deletion of a key. -/
def deletes : Call → Bool
  | .leaf (.msa (.deleteMsaPublicKey _)) => true
  | _ => false

/-- No key is deleted by the calls of a log. -/
def NoDelete (l : List (AccountId × Call)) : Prop := ∀ e ∈ l, deletes e.2 = false

/-- Executed calls, events and keys from one world to another. -/
def Goes (w0 w : World) : Prop :=
  ∃ l es, w.log = w0.log ++ l ∧ w.chain.msa.events = w0.chain.msa.events ++ es ∧ es.length ≤ count isKeyCall l ∧
    Follows w0.chain.msa.keyToMsa.get es w.chain.msa.keyToMsa.get ∧ (NoDelete l → Owned w0.chain.msa.keyToMsa.get es)

theorem Goes.refl (w : World) : Goes w w := ⟨[], [], by simp, by simp, Nat.zero_le _, rfl, fun _ => trivial⟩

/-- One executed call. -/
theorem step_events {cfg : Wrapped.Config} {env : TimeRelease.Env} {w w' : World} {who : AccountId} {c : Call}
    (h : Wrapped.step cfg env who w c = some w') :
    ∃ es, w'.chain.msa.events = w.chain.msa.events ++ es ∧ es.length ≤ count isKeyCall [(who, c)] ∧
      Follows w.chain.msa.keyToMsa.get es w'.chain.msa.keyToMsa.get ∧
      ((∀ k, c ≠ .leaf (.msa (.deleteMsaPublicKey k))) → Owned w.chain.msa.keyToMsa.get es) ∧
      (∀ k, c = .leaf (.msa (.deleteMsaPublicKey k)) →
        w.chain.msa.keyToMsa.get k = w.chain.msa.keyToMsa.get who → Owned w.chain.msa.keyToMsa.get es) := by
  by_cases hleaf : ∃ c', c = .leaf c'
  · obtain ⟨c, rfl⟩ := hleaf
    simp only [Wrapped.step, Option.map_eq_some_iff] at h
    obtain ⟨s, hs, rfl⟩ := h
    obtain ⟨es, h1, h2, -, h4, h5, h6⟩ := dispatch_events hs
    refine ⟨es, h1, ?_, h4, fun hn => h5 (fun k e => hn k (by rw [e])), fun k e => h6 who k rfl (by simpa using e)⟩
    refine Nat.le_trans h2 ?_
    by_cases hm : isKeyCall c = true <;> simp [count, hm]
  · have hn : ∀ c', c ≠ .leaf c' := fun c' e => hleaf ⟨c', e⟩
    have e : w'.chain = w.chain := by
      have := Wrapped.step_tokens h
      have hq : (Tokens.run cfg.wallet.tokens w.tokens (Wrapped.deed env (who, c)).toList).chain = w.tokens.chain := by
        match c with
        | .leaf c => exact absurd rfl (hn c)
        | .release _ => rfl
        | .transfer .. => exact Wrapped.transfer_chain
        | .transferAll .. => exact Wrapped.transfer_chain
        | .other .. | .addProxy .. | .removeProxy .. | .removeProxies | .createPure ..
        | .killPure .. | .announce .. | .removeAnnouncement .. | .rejectAnnouncement .. | .approveMulti .. | .cancelMulti ..
        | .proxy .. | .proxyAnnounced .. | .batch .. | .asDerivative .. | .payWithCapacity .. | .payWithCapacityBatchAll ..
        | .multiThreshold1 .. | .multi .. => rfl
      show w'.tokens.chain = w.tokens.chain
      rw [this, hq]
    exact ⟨[], by rw [e, List.append_nil], Nat.zero_le _, by rw [e]; rfl, fun _ => trivial, fun _ _ _ => trivial⟩

theorem goes_guarded (cfg : Wrapped.Config) (env : TimeRelease.Env) (w0 : World) :
    Wrapped.Guarded cfg env (Goes w0) (fun _ _ _ => True) where
  step := by
    rintro flt who c w w' - - ⟨l, es, h1, h2, h3, h4, h5⟩ h
    obtain ⟨es', g1, g2, g3, g4, -⟩ := step_events h
    refine ⟨l ++ [(who, c)], es ++ es', ?_, ?_, ?_, h4.append g3, fun hn => ?_⟩
    · simp [World.done, (Wrapped.step_log h).1, h1]
    · show w'.chain.msa.events = _
      rw [g1, h2, List.append_assoc]
    · rw [Weights.count_append, List.length_append]; omega
    · exact (h5 (fun e he => hn e (List.mem_append_left _ he))).append h4
        (g4 (fun k e => by
          have := hn (who, c) (List.mem_append_right _ (List.mem_singleton.2 rfl))
          rw [e] at this
          simp [deletes] at this))
  proxy := by intros; trivial
  announced := by
    rintro w w' delegate real force c d hi - he
    rw [(Wrapped.editAnns_some he).2]
    exact ⟨hi, trivial⟩
  batch := by intros; trivial
  derive := by intros; trivial
  pay := by intros; trivial
  payAll := by intros; trivial
  multi1 := by intros; trivial
  multi := by
    rintro flt who threshold others c w w' id now - ⟨l, es, h⟩ ho
    obtain ⟨h1, -, -, h2, -⟩ := Wrapped.operate_frame ho
    refine ⟨⟨l, es, ?_⟩, fun _ => trivial⟩
    have hc : w'.chain = w.chain := by show w'.tokens.chain = _; rw [h1]
    rw [h2, hc]
    exact h

end Verif.KeyIndex
