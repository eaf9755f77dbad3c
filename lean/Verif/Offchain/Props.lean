import Verif.Offchain.Lemmas
/-!
# C17: the off-chain key index follows the chain

The system below interleaves, in any order, transactions, block boundaries, one completed initial
indexing and worker runs that may stop after any write.
-/

namespace Verif.Offchain

open Msa (KeyEvent)

/-- Chain plus the off-chain database of one node. `hist b` is the key map at the end of block `b` (for
the open block: now); `since` and `clean` are bookkeeping of the specification: the block whose state
the initial index read, and whether the last worker step finished its block. -/
structure Sys where
  chain : Msa.State
  now : Nat
  count : Nat
  db : Db
  hist : Nat → AccountId → Option MsaId
  since : Nat
  clean : Bool

/-- Genesis: no accounts, nothing stored. -/
def Sys.init (clears : Bool := true) : Sys := ⟨Msa.State.init, 0, 0, Db.init clears, fun _ _ => none, 0, true⟩

/-- Index a list of events, offchain_storage.rs 85-105 once per event. -/
def indexAll (block : Nat) : List KeyEvent → Db × Nat → Db × Nat
  | [], x => x
  | e :: es, x => indexAll block es (indexEvent x.1 block x.2 e)

/-- Events emitted between two states of the pallet. -/
def emitted (s s' : Msa.State) : List KeyEvent := s'.events.drop s.events.length

/-- State after the pallet has come to another state in the open block: the new events are indexed. -/
def Sys.becomes (s : Sys) (c' : Msa.State) : Sys :=
  let r := indexAll s.now (emitted s.chain c') (s.db, s.count)
  { s with
    chain := c', db := r.1, count := r.2,
    hist := fun b => if b = s.now then c'.keyToMsa.get else s.hist b }

/-- State after a transaction in the open block. -/
def Sys.tx (cfg : Msa.Config) (s : Sys) (st : Msa.Step) : Sys := s.becomes (Msa.applyTx cfg s.chain st)

/-- The open block is closed and the next one opened; lib.rs 400-404 resets the counter. -/
def Sys.next (s : Sys) : Sys :=
  { s with
    now := s.now + 1, count := 0,
    hist := fun b => if b = s.now + 1 then s.chain.keyToMsa.get else s.hist b }

/-- One step of the system. -/
inductive SysStep (cfg : Msa.Config) : Sys → Sys → Prop
  /-- a transaction; fewer than 65535 key events per block -/
  | tx (s : Sys) (st : Msa.Step)
      (hc : s.count + (emitted s.chain (Msa.applyTx cfg s.chain st)).length ≤ 65535) :
      SysStep cfg s (s.tx cfg st)
  | next (s : Sys) : SysStep cfg s s.next
  /-- the initial indexing, completed: the worker of closed block `n` iterates the keys of the state at
  the end of that block, block `f` being finalized -/
  | initial (s : Sys) (accounts : List (AccountId × MsaId)) (f n : Nat) (hf : 1 ≤ f) (hfn : f ≤ n)
      (hn : n < s.now) (hacc : ∀ k m, (k, m) ∈ accounts ↔ s.hist n k = some m)
      (hi : s.db.indexed = false) (hl : s.db.last = none) (hk : s.db.keys = ∅) :
      SysStep cfg s { s with db := initialIndex accounts f none s.db, since := n, clean := true }
  /-- the worker handles the next closed block and stops after `j` writes -/
  | work (s : Sys) (lp j : Nat) (hi : s.db.indexed = true) (hl : s.db.last = some lp)
      (hn : lp + 1 < s.now) :
      SysStep cfg s
        { s with
          db := s.db.writes ((blockWrites s.db (lp + 1)).take j)
          clean := decide ((s.db.writes ((blockWrites s.db (lp + 1)).take j)).last = some (lp + 1)) }

/-- States reachable from genesis. -/
inductive Reach (cfg : Msa.Config) : Sys → Prop
  | init (clears : Bool) : Reach cfg (Sys.init clears)
  | step {s s' : Sys} : Reach cfg s → SysStep cfg s s' → Reach cfg s'

/-- Does key `k` belong to account `m` in the key map `h`? -/
def has (h : AccountId → Option MsaId) (m : MsaId) (k : AccountId) : Bool := decide (h k = some m)

/-! ## The chain side -/

theorem emitted_append (s : Msa.State) (es : List KeyEvent) (s' : Msa.State)
    (h : s'.events = s.events ++ es) : emitted s s' = es := by simp [emitted, h]

/-- A transaction changes the key map exactly as its events say. -/
theorem chain_events (cfg : Msa.Config) (s : Msa.State) (st : Msa.Step) (m : MsaId) (k : AccountId) :
    has (Msa.applyTx cfg s st).keyToMsa.get m k =
      (lastVerdict m k (emitted s (Msa.applyTx cfg s st))).getD (has s.keyToMsa.get m k) := by
  have hid : has s.keyToMsa.get m k = (lastVerdict m k (emitted s s)).getD (has s.keyToMsa.get m k) := by
    rw [emitted_append s [] s (by simp)]; rfl
  rcases Msa.applyTx_eq cfg s st with h | ⟨h, hv⟩
  · rw [h]; exact hid
  · rw [h]
    have he := Msa.apply_eff cfg s st
    obtain ⟨env, o, c⟩ := st
    simp only at he hv
    generalize Msa.apply cfg s ⟨env, o, c⟩ = s' at he
    have hadd : ∀ (m' : MsaId) (k' : AccountId) (s' : Msa.State) (ev : KeyEvent),
        s.keyToMsa.get k' = none → s'.keyToMsa.get = (Msa.withKey s m' k').keyToMsa.get →
        s'.events = s.events ++ [ev] → (ev = .created m' k' ∨ ev = .added m' k') →
        has s'.keyToMsa.get m k =
          (lastVerdict m k (emitted s s')).getD (has s.keyToMsa.get m k) := by
      intro m' k' s' ev hk hget hev hor
      rw [emitted_append s _ s' hev, hget]
      have hv : verdict m k ev = if m' = m ∧ k' = k then some true else none := by
        rcases hor with rfl | rfl <;> rfl
      simp only [lastVerdict, hv, has, Msa.withKey_get]
      by_cases hk' : k' = k
      · subst hk'
        by_cases hm : m' = m
        · simp [hm]
        · simp [hm, hk]
      · simp [hk']
    cases he with
    | noop => exact hid
    | create hid' hk hc => exact hadd _ _ _ _ hk rfl rfl (Or.inl rfl)
    | sponsored hv' hr hw hp hid' hk hc hn hd hl hs => exact hadd _ _ _ _ hk rfl rfl (Or.inl rfl)
    | provider hl hn hk => exact hid
    | grant hv' hr hw hdk hne hp hd => exact hid
    | revoke hc hd h0 => exact hid
    | addKey hv1 hv2 hr1 hr2 ho hk hc => exact hadd _ _ _ _ hk rfl rfl (Or.inr rfl)
    | @delete who c m' k' m'' hw hk hc =>
      have hv := hv who rfl
      have hmm : m'' = m' := by
        rcases hc with rfl | ⟨rfl, rfl⟩
        · obtain ⟨_, x, h1, h2⟩ := Msa.validateKeyDelete_ok (u := ()) hv
          rw [h1] at hw; rw [h2] at hk
          simp only [Option.some.injEq] at hw hk
          omega
        · rw [hw] at hk; simpa using hk.symm
      subst hmm
      rw [emitted_append s [.deleted m'' k'] _ rfl]
      simp only [lastVerdict, verdict, has]
      rw [show (_ : Msa.State).keyToMsa.get k = _ from Msa.withoutKey_get _ _ _ _]
      by_cases hk' : k' = k
      · subst hk'
        by_cases hm : m'' = m
        · simp [hm]
        · simp [hm, hk]
      · simp [hk']
    | revokeSchemas hw hd hm => exact hid

/-! ## Indexing events -/

theorem indexAll_spec (b : Nat) (es : List KeyEvent) : ∀ (db : Db) (c : Nat),
    (db.cnt.get b).getD 0 = c → c + es.length ≤ 65535 →
    let r := indexAll b es (db, c)
    readEvents r.1 b = readEvents db b ++ es ∧ (∀ b', b' ≠ b → readEvents r.1 b' = readEvents db b') ∧
      (∀ b', b' ≠ b → r.1.cnt.get b' = db.cnt.get b') ∧ (r.1.cnt.get b).getD 0 = r.2 ∧
      r.1.keys = db.keys ∧ r.1.last = db.last ∧ r.1.indexed = db.indexed := by
  induction es with
  | nil => intro db c h _; simp [indexAll, h]
  | cons e es ih =>
    intro db c hc hl
    simp only [List.length_cons] at hl
    have hmin : min (c + 1) 65535 = c + 1 := by omega
    have hx : indexEvent db b c e =
        ({ db with evt := db.evt.insert (b, c + 1) e, cnt := db.cnt.insert b (c + 1) }, c + 1) := by
      simp [indexEvent, hmin]
    simp only [indexAll, hx]
    obtain ⟨h1, h2, h3, h4, h5, h6, h7⟩ := ih
      { db with evt := db.evt.insert (b, c + 1) e, cnt := db.cnt.insert b (c + 1) } (c + 1)
      (by simp) (by omega)
    refine ⟨?_, ?_, ?_, h4, h5, h6, h7⟩
    · rw [h1]
      have : readEvents { db with evt := db.evt.insert (b, c + 1) e, cnt := db.cnt.insert b (c + 1) } b
          = readEvents db b ++ [e] := by
        simp only [readEvents, SMap.get_insert_self, Option.getD_some, hc]
        rw [List.range'_concat, List.filterMap_append]
        congr 1
        · apply List.filterMap_congr
          intro i hi
          rw [List.mem_range'_1] at hi
          have hne : ((b, c + 1) : Nat × Nat) ≠ (b, i) := by
            intro he; simp only [Prod.mk.injEq] at he; omega
          exact SMap.get_insert_ne _ hne _
        · rw [show 1 + 1 * c = c + 1 by omega]
          simp
      rw [this]; simp
    · intro b' hb'
      rw [h2 b' hb']
      have hne : b ≠ b' := fun e => hb' e.symm
      simp only [readEvents, SMap.get_insert_ne _ hne _]
      apply List.filterMap_congr
      intro i _
      exact SMap.get_insert_ne _ (by intro he; simp only [Prod.mk.injEq] at he; exact hne he.1) _
    · intro b' hb'
      rw [h3 b' hb']
      exact SMap.get_insert_ne _ (fun e => hb' e.symm) _

/-! ## The invariant -/

/-- What is true in every reachable state. -/
structure Inv (s : Sys) : Prop where
  open_count : (s.db.cnt.get s.now).getD 0 = s.count
  future : ∀ b, s.now < b → s.db.cnt.get b = none
  open_hist : s.hist s.now = s.chain.keyToMsa.get
  fresh : s.db.indexed = false → ∀ b c, b ≤ c → c ≤ s.now → ∀ m k,
    (lastVerdict m k (storedFrom s.db (b + 1) (c - b))).getD (has (s.hist b) m k) = has (s.hist c) m k
  synced : s.db.indexed = true → ∃ lp, s.db.last = some lp ∧ lp < s.now ∧
    ∀ c, s.since ≤ c → c ≤ s.now → (lp < c ∨ (lp = c ∧ s.clean = true)) → ∀ m k,
      target s.db lp (c - lp) m k = has (s.hist c) m k
  since_le : s.since ≤ s.now

theorem initialWrites_spec (accounts : List (AccountId × MsaId)) : ∀ db : Db,
    let d := db.writes (initialWrites accounts db)
    d.evt = db.evt ∧ d.cnt = db.cnt ∧ d.last = db.last ∧
      ∀ m k, inIndex d m k = (inIndex db m k || decide ((k, m) ∈ accounts)) := by
  induction accounts with
  | nil => intro db; simp [initialWrites, Db.writes]
  | cons a rest ih =>
    intro db
    obtain ⟨k0, m0⟩ := a
    simp only [initialWrites, Db.writes, List.foldl_cons]
    obtain ⟨h1, h2, h3, h4⟩ := ih (db.write (.setKeys m0 (processEvents (db.keysOf m0) [.added m0 k0])))
    refine ⟨h1, h2, h3, fun m k => ?_⟩
    simp only [Db.writes] at h4
    rw [h4]
    by_cases hm : m0 = m
    · subst hm
      have := processEvents_mem m0 k [.added m0 k0] (by simp [msaOf]) (db.keysOf m0)
      have hidx : inIndex (db.write (.setKeys m0 (processEvents (db.keysOf m0) [.added m0 k0]))) m0 k =
          decide (k ∈ processEvents (db.keysOf m0) [.added m0 k0]) := by
        unfold inIndex
        congr 2
        simp [Db.keysOf, Db.write]
      rw [hidx, this]
      simp only [lastVerdict, verdict, true_and, List.mem_cons, Prod.mk.injEq, and_true]
      by_cases hk : k0 = k
      · simp [hk]
      · have : ¬ k = k0 := fun e => hk e.symm
        simp [hk, this, inIndex]
    · have hidx : inIndex (db.write (.setKeys m0 (processEvents (db.keysOf m0) [.added m0 k0]))) m k =
          inIndex db m k := by
        unfold inIndex
        congr 2
        simp [Db.keysOf, Db.write, SMap.get_insert, hm]
      have : ¬ m = m0 := fun e => hm e.symm
      rw [hidx]
      simp [this]

theorem cnt_none_readEvents {db : Db} {b : Nat} (h : db.cnt.get b = none) : readEvents db b = [] := by
  simp [readEvents, h]

theorem writes_cnt_ne (ws : List Write) (b : Nat) : ∀ db : Db,
    (∀ w ∈ ws, w ≠ .clearCnt b) → (db.writes ws).cnt.get b = db.cnt.get b := by
  induction ws with
  | nil => intro db _; rfl
  | cons w ws ih =>
    intro db h
    have := ih (db.write w) (fun x hx => h x (List.mem_cons_of_mem _ hx))
    simp only [Db.writes, List.foldl_cons] at *
    rw [this]
    have hw := h w (by simp)
    cases w with
    | clearCnt b' =>
      have : b' ≠ b := by intro e; subst e; exact hw rfl
      simp [Db.write, SMap.get_erase, this]
    | _ => rfl

theorem blockWrites_no_clear (db : Db) (b b' : Nat) (hne : b ≠ b') :
    ∀ w ∈ blockWrites db b, w ≠ .clearCnt b' := by
  intro w hw e
  subst e
  simp only [blockWrites, reverseMapWrites, keyWrites, List.mem_append, List.mem_map,
    List.mem_singleton, reduceCtorEq, and_false, exists_false, or_false, false_or] at hw
  split at hw
  · simp at hw
  · unfold cleanWrites at hw
    split at hw
    · simp only [List.mem_append, List.mem_map, reduceCtorEq, and_false, exists_false,
        false_or, List.mem_singleton, Write.clearCnt.injEq] at hw
      exact hne hw.symm
    · cases hw

theorem inv_init (clears : Bool) : Inv (Sys.init clears) := by
  refine ⟨rfl, fun b _ => rfl, rfl, ?_, ?_, le_refl _⟩
  · intro _ b c hbc hc m k
    have hb : b = 0 := by simp only [Sys.init] at hc; omega
    have hc : c = 0 := by simp only [Sys.init] at hc; omega
    subst hb; subst hc
    rfl
  · intro h; simp [Sys.init, Db.init] at h

theorem inv_becomes {s : Sys} {c' : Msa.State} (hi : Inv s) (hc : s.count + (emitted s.chain c').length ≤ 65535)
    (hch : ∀ m k, has c'.keyToMsa.get m k = (lastVerdict m k (emitted s.chain c')).getD (has s.chain.keyToMsa.get m k)) :
    Inv (s.becomes c') := by
  obtain ⟨h1, h2, h3, h4, h5, h6, h7⟩ := indexAll_spec s.now
    (emitted s.chain c') s.db s.count hi.open_count hc
  have hstep : ∀ b n, b + n = s.now → storedFrom (s.becomes c').db (b + 1) n =
      storedFrom s.db (b + 1) n ++ if n = 0 then [] else
        emitted s.chain c' := by
    intro b n hn
    cases n with
    | zero => rfl
    | succ n =>
      rw [storedFrom_snoc, storedFrom_snoc]
      have e1 : storedFrom (s.becomes c').db (b + 1) n = storedFrom s.db (b + 1) n :=
        storedFrom_congr (fun i _ hi' => h2 i (by omega))
      have e2 : readEvents (s.becomes c').db (b + 1 + n) = readEvents s.db (b + 1 + n) ++
          emitted s.chain c' := by
        have : b + 1 + n = s.now := by omega
        rw [this]; exact h1
      rw [e1, e2]
      simp
  have hold : ∀ b n, b + n < s.now → storedFrom (s.becomes c').db (b + 1) n =
      storedFrom s.db (b + 1) n := by
    intro b n hn
    exact storedFrom_congr (fun i _ hi' => h2 i (by omega))
  have hhist : ∀ b, b ≠ s.now → (s.becomes c').hist b = s.hist b := by
    intro b hb; simp [Sys.becomes, hb]
  have hnow : (s.becomes c').hist s.now = c'.keyToMsa.get := by
    simp [Sys.becomes]
  have hglue : ∀ (l : List KeyEvent) (x : Bool) m k, (lastVerdict m k l).getD x = has (s.hist s.now) m k →
      (lastVerdict m k (l ++ emitted s.chain c')).getD x =
        has ((s.becomes c').hist s.now) m k := by
    intro l x m k hl
    rw [hnow, hch m k, lastVerdict_append]
    cases lastVerdict m k (emitted s.chain c') with
    | some y => rfl
    | none => simp only [Option.getD_none]; rw [hl, hi.open_hist]
  refine ⟨h4, ?_, ?_, ?_, ?_, hi.since_le⟩
  · intro b hb
    have := h3 b (by have : s.now < b := hb; omega)
    exact this.trans (hi.future b hb)
  · exact hnow
  · intro hidx b c hbc hcn m k
    have hidx' : s.db.indexed = false := by rw [← h7]; exact hidx
    have hcn : c ≤ s.now := hcn
    have hf := hi.fresh hidx' b c hbc hcn m k
    by_cases hcc : c = s.now
    · subst hcc
      by_cases hb : b = s.now
      · subst hb; simp only [Nat.sub_self, storedFrom, List.range'_zero, List.flatMap_nil, lastVerdict,
          Option.getD_none]
      · rw [hstep b (s.now - b) (by omega), if_neg (by omega), hhist b hb]
        exact hglue _ _ m k hf
    · rw [hold b (c - b) (by omega), hhist b (by omega), hhist c hcc]
      exact hf
  · intro hidx
    have hidx' : s.db.indexed = true := by rw [← h7]; exact hidx
    obtain ⟨lp, hl, hlt, ht⟩ := hi.synced hidx'
    refine ⟨lp, h6.trans hl, hlt, fun c hsc hcn hor m k => ?_⟩
    have hcn : c ≤ s.now := hcn
    have ht := ht c hsc hcn hor m k
    have hin : inIndex (s.becomes c').db m k = inIndex s.db m k := by
      unfold inIndex Db.keysOf
      show decide (k ∈ ((indexAll s.now _ (s.db, s.count)).1.keys.get m).getD []) = _
      rw [h5]
    unfold target at *
    rw [hin]
    by_cases hcc : c = s.now
    · subst hcc
      rw [hstep lp (s.now - lp) (by omega), if_neg (by omega)]
      exact hglue _ _ m k ht
    · rw [hold lp (c - lp) (by omega), hhist c hcc]
      exact ht

theorem inv_tx {cfg s st} (hi : Inv s)
    (hc : s.count + (emitted s.chain (Msa.applyTx cfg s.chain st)).length ≤ 65535) :
    Inv (s.tx cfg st) := inv_becomes hi hc (chain_events cfg s.chain st)

theorem inv_next {s : Sys} (hi : Inv s) : Inv s.next := by
  have hhist : ∀ b, b ≤ s.now → s.next.hist b = s.hist b := by
    intro b hb
    have : b ≠ s.now + 1 := by omega
    simp [Sys.next, this]
  have hnew : s.next.hist (s.now + 1) = s.hist s.now := by simp [Sys.next, hi.open_hist]
  have hempty : readEvents s.db (s.now + 1) = [] := cnt_none_readEvents (hi.future _ (by omega))
  have hext : ∀ b, b ≤ s.now → storedFrom s.db (b + 1) (s.now + 1 - b) =
      storedFrom s.db (b + 1) (s.now - b) := by
    intro b hb
    have : s.now + 1 - b = (s.now - b) + 1 := by omega
    rw [this, storedFrom_snoc]
    have : b + 1 + (s.now - b) = s.now + 1 := by omega
    rw [this, hempty, List.append_nil]
  refine ⟨?_, ?_, ?_, ?_, ?_, ?_⟩
  · simp [Sys.next, hi.future (s.now + 1) (by omega)]
  · intro b hb; exact hi.future b (by have : s.now + 1 < b := hb; omega)
  · simp [Sys.next]
  · intro hidx b c hbc hcn m k
    have hcn : c ≤ s.now + 1 := hcn
    show (lastVerdict m k (storedFrom s.db (b + 1) (c - b))).getD _ = _
    by_cases hcc : c = s.now + 1
    · subst hcc
      by_cases hb : b = s.now + 1
      · subst hb; simp [storedFrom, lastVerdict]
      · rw [hext b (by omega), hnew, hhist b (by omega)]
        exact hi.fresh hidx b s.now (by omega) (le_refl _) m k
    · rw [hhist b (by omega), hhist c (by omega)]
      exact hi.fresh hidx b c hbc (by omega) m k
  · intro hidx
    obtain ⟨lp, hl, hlt, ht⟩ := hi.synced hidx
    refine ⟨lp, hl, by show lp < s.now + 1; omega, fun c hsc hcn hor m k => ?_⟩
    have hcn : c ≤ s.now + 1 := hcn
    show target s.db lp (c - lp) m k = _
    by_cases hcc : c = s.now + 1
    · subst hcc
      have := ht s.now hi.since_le (le_refl _) (Or.inl hlt) m k
      unfold target at *
      rw [hext lp (by omega), hnew]
      exact this
    · rw [hhist c (by omega)]
      exact ht c hsc (by omega) hor m k
  · have := hi.since_le
    show s.since ≤ s.now + 1
    omega

theorem inv_initial {s : Sys} (hi : Inv s) (accounts : List (AccountId × MsaId)) (f n : Nat)
    (hf : 1 ≤ f) (hfn : f ≤ n) (hn : n < s.now)
    (hacc : ∀ k m, (k, m) ∈ accounts ↔ s.hist n k = some m)
    (hidx : s.db.indexed = false) (hk : s.db.keys = ∅) :
    Inv { s with db := initialIndex accounts f none s.db, since := n, clean := true } := by
  obtain ⟨h1, h2, h3, h4⟩ := initialWrites_spec accounts (s.db.write (.setLast (f - 1)))
  let d := initialIndex accounts f none s.db
  have hd : d = ((s.db.write (.setLast (f - 1))).writes
      (initialWrites accounts (s.db.write (.setLast (f - 1))))).write .setIndexed := by
    simp [d, initialIndex, hidx]
  have hevt : d.evt = s.db.evt := by rw [hd]; exact h1
  have hcnt : d.cnt = s.db.cnt := by rw [hd]; exact h2
  have hlast : d.last = some (f - 1) := by rw [hd]; exact h3
  have hin : ∀ m k, inIndex d m k = has (s.hist n) m k := by
    intro m k
    have : inIndex d m k = inIndex ((s.db.write (.setLast (f - 1))).writes
      (initialWrites accounts (s.db.write (.setLast (f - 1))))) m k := by rw [hd]; rfl
    rw [this, h4]
    have : inIndex (s.db.write (.setLast (f - 1))) m k = false := by
      simp [inIndex, Db.keysOf, Db.write, hk]
    rw [this]
    simp [has, hacc]
  have hre : ∀ b, readEvents d b = readEvents s.db b := fun b => readEvents_congr hevt hcnt b
  have hst : ∀ b n, storedFrom d b n = storedFrom s.db b n := fun b n =>
    storedFrom_congr (fun i _ _ => hre i)
  refine ⟨?_, ?_, hi.open_hist, ?_, ?_, by show n ≤ s.now; omega⟩
  · show (d.cnt.get s.now).getD 0 = s.count
    rw [hcnt]; exact hi.open_count
  · intro b hb
    show d.cnt.get b = none
    rw [hcnt]; exact hi.future b hb
  · intro hx
    exfalso
    have : d.indexed = false := hx
    rw [hd] at this
    simp [Db.write] at this
  · intro _
    refine ⟨f - 1, hlast, by show f - 1 < s.now; omega, fun c hsc hcn hor m k => ?_⟩
    have hsc : n ≤ c := hsc
    have hcn : c ≤ s.now := hcn
    show target d (f - 1) (c - (f - 1)) m k = has (s.hist c) m k
    unfold target
    rw [hst, hin]
    have hall := hi.fresh hidx (f - 1) c (by omega) hcn m k
    have htail := hi.fresh hidx n c hsc hcn m k
    have hsplit : storedFrom s.db (f - 1 + 1) (c - (f - 1)) =
        storedFrom s.db (f - 1 + 1) (n - (f - 1)) ++ storedFrom s.db (n + 1) (c - n) := by
      unfold storedFrom
      rw [← List.flatMap_append]
      congr 1
      have := List.range'_append_1 (s := f - 1 + 1) (m := n - (f - 1)) (n := c - n)
      have e1 : f - 1 + 1 + (n - (f - 1)) = n + 1 := by omega
      have e2 : n - (f - 1) + (c - n) = c - (f - 1) := by omega
      rw [e1, e2] at this
      exact this.symm
    rw [hsplit, lastVerdict_append] at hall ⊢
    cases hl : lastVerdict m k (storedFrom s.db (n + 1) (c - n)) with
    | some x => simp only [hl, Option.getD_some] at hall ⊢; exact hall
    | none =>
      simp only [hl, Option.getD_none] at htail hall ⊢
      cases hl2 : lastVerdict m k (storedFrom s.db (f - 1 + 1) (n - (f - 1))) with
      | some x => simp only [hl2, Option.getD_some] at hall ⊢; exact hall
      | none => simp only [Option.getD_none]; exact htail

theorem inv_work {s : Sys} (hi : Inv s) (lp j : Nat) (hidx : s.db.indexed = true)
    (hl : s.db.last = some lp) (hn : lp + 1 < s.now) :
    Inv { s with
      db := s.db.writes ((blockWrites s.db (lp + 1)).take j)
      clean := decide ((s.db.writes ((blockWrites s.db (lp + 1)).take j)).last = some (lp + 1)) } := by
  obtain ⟨lp', hl', hlt, ht⟩ := hi.synced hidx
  rw [hl] at hl'
  simp only [Option.some.injEq] at hl'
  subst hl'
  let d := s.db.writes ((blockWrites s.db (lp + 1)).take j)
  have hcnt : ∀ b, b ≠ lp + 1 → d.cnt.get b = s.db.cnt.get b := by
    intro b hb
    apply writes_cnt_ne
    intro w hw
    exact blockWrites_no_clear s.db (lp + 1) b (fun e => hb e.symm) w (List.mem_of_mem_take hw)
  have hbp := fun n => blockWrites_prefix s.db lp n j hl
  have hidx' : d.indexed = true := (hbp 0).2.1.trans hidx
  refine ⟨?_, ?_, hi.open_hist, ?_, ?_, hi.since_le⟩
  · show (d.cnt.get s.now).getD 0 = s.count
    rw [hcnt _ (by omega)]; exact hi.open_count
  · intro b hb
    show d.cnt.get b = none
    have hb : s.now < b := hb
    rw [hcnt _ (by omega)]; exact hi.future b hb
  · intro hx
    exfalso
    have : d.indexed = false := hx
    rw [hidx'] at this; cases this
  · intro _
    by_cases hdl : d.last = some (lp + 1)
    · refine ⟨lp + 1, hdl, hn, fun c hsc hcn hor m k => ?_⟩
      have hcn : c ≤ s.now := hcn
      have hlc : lp + 1 ≤ c := by rcases hor with h | h <;> omega
      rcases (hbp (c - (lp + 1))).2.2 with ⟨hx, _⟩ | ⟨_, hx⟩
      · exfalso
        have hx : d.last = some lp := hx
        rw [hdl] at hx; simp at hx
      · show target d (lp + 1) (c - (lp + 1)) m k = has (s.hist c) m k
        have := hx m k
        rw [show c - (lp + 1) + 1 = c - lp by omega] at this
        exact this.trans (ht c hsc hcn (Or.inl (by omega)) m k)
    · have hdl' : d.last = some lp := by
        rcases (hbp 0).2.2 with ⟨hx, _⟩ | ⟨hx, _⟩
        · exact hx
        · exact absurd hx hdl
      refine ⟨lp, hdl', hlt, fun c hsc hcn hor m k => ?_⟩
      have hcn : c ≤ s.now := hcn
      have hlc : lp + 1 ≤ c := by
        rcases hor with h | ⟨_, h⟩
        · omega
        · exfalso
          have h : decide (d.last = some (lp + 1)) = true := h
          simp at h
          exact hdl h
      rcases (hbp (c - (lp + 1))).2.2 with ⟨_, hx⟩ | ⟨hx, _⟩
      · show target d lp (c - lp) m k = has (s.hist c) m k
        have := hx m k
        rw [show c - (lp + 1) + 1 = c - lp by omega] at this
        exact this.trans (ht c hsc hcn (Or.inl (by omega)) m k)
      · exact absurd hx hdl

theorem inv_reach {cfg : Msa.Config} {s : Sys} (h : Reach cfg s) : Inv s := by
  induction h with
  | init clears => exact inv_init clears
  | step _ hs ih =>
    cases hs with
    | tx st hc => exact inv_tx ih hc
    | next => exact inv_next ih
    | initial accounts f n hf hfn hn hacc hidx hl hk => exact inv_initial ih accounts f n hf hfn hn hacc hidx hk
    | work lp j hidx hl hn => exact inv_work ih lp j hidx hl hn

/-! ## Whole worker runs are made of such steps -/

theorem blockWrites_all (db : Db) (b : Nat) :
    db.writes ((blockWrites db b).take (blockWrites db b).length) =
      (db.writes (reverseMapWrites db b)).write (.setLast b) := by
  rw [List.take_length]; simp [blockWrites, Db.writes]

theorem blockWrites_cut (db : Db) (b : Nat) :
    db.writes ((blockWrites db b).take (reverseMapWrites db b).length) =
      db.writes (reverseMapWrites db b) := by
  simp [blockWrites]

/-- What holds after every step of the worker. -/
def Worked (R : Sys → Prop) : Prop :=
  ∀ (s : Sys) (lp j : Nat), R s → s.db.indexed = true → s.db.last = some lp → lp + 1 < s.now →
    R { s with
      db := s.db.writes ((blockWrites s.db (lp + 1)).take j)
      clean := decide ((s.db.writes ((blockWrites s.db (lp + 1)).take j)).last = some (lp + 1)) }

theorem loop_worked {R : Sys → Prop} (hR : Worked R) (extend : Nat → Bool) : ∀ (n lp : Nat) (s : Sys), R s →
    s.db.indexed = true → s.db.last = some lp → lp + n < s.now →
    ∃ cl, R { s with db := applyLoop extend n (lp + 1) s.db, clean := cl } ∧
      (s.clean = true ∨ n ≠ 0 → (∀ b, extend b = true) → cl = true) ∧
      ((∀ b, extend b = true) → (applyLoop extend n (lp + 1) s.db).last = some (lp + n)) := by
  intro n
  induction n with
  | zero => intro lp s hr _ hl _; exact ⟨s.clean, hr, by simp only [ne_eq, not_true_eq_false, or_false]; exact fun h _ => h, fun _ => hl⟩
  | succ n ih =>
    intro lp s hr hi hl hn
    have hfull : R { s with
        db := (s.db.writes (reverseMapWrites s.db (lp + 1))).write (.setLast (lp + 1)),
        clean := true } := by
      have := hR s lp (blockWrites s.db (lp + 1)).length hr hi hl (by omega)
      rw [blockWrites_all] at this
      simpa [Db.write] using this
    have hidx : ((s.db.writes (reverseMapWrites s.db (lp + 1))).write (.setLast (lp + 1))).indexed =
        true := by
      rw [← blockWrites_all]
      exact (blockWrites_prefix s.db lp 0 _ hl).2.1.trans hi
    by_cases hext : readEvents s.db (lp + 1) ≠ [] ∧ extend (lp + 1) = false
    · simp only [applyLoop]
      rw [if_pos hext]
      have := hR s lp (reverseMapWrites s.db (lp + 1)).length hr hi hl (by omega)
      rw [blockWrites_cut] at this
      refine ⟨_, this, ?_, ?_⟩
      · intro _ h; rw [h] at hext; simp at hext
      · intro h; rw [h] at hext; simp at hext
    · simp only [applyLoop]
      rw [if_neg hext]
      obtain ⟨cl, h1, h2, h3⟩ := ih (lp + 1) _ hfull hidx rfl (by show lp + 1 + n < s.now; omega)
      refine ⟨cl, h1, fun _ hall => h2 (Or.inl rfl) hall, ?_⟩
      intro hall
      have := h3 hall
      rw [show lp + (n + 1) = lp + 1 + n by omega]
      exact this

theorem loop_reach (cfg : Msa.Config) (extend : Nat → Bool) (n lp : Nat) (s : Sys) (hr : Reach cfg s)
    (hi : s.db.indexed = true) (hl : s.db.last = some lp) (hn : lp + n < s.now) :
    ∃ cl, Reach cfg { s with db := applyLoop extend n (lp + 1) s.db, clean := cl } ∧
      (s.clean = true ∨ n ≠ 0 → (∀ b, extend b = true) → cl = true) ∧
      ((∀ b, extend b = true) → (applyLoop extend n (lp + 1) s.db).last = some (lp + n)) :=
  loop_worked (fun s lp j hr hi hl hn => .step hr (.work s lp j hi hl hn)) extend n lp s hr hi hl hn

/-- Every run of the event loop, stopped early or not, leads to a reachable state. -/
theorem worker_reach {cfg : Msa.Config} {s : Sys} (hr : Reach cfg s) (hi : s.db.indexed = true)
    (extend : Nat → Bool) (f : Nat) (hf : f < s.now) :
    ∃ cl, Reach cfg { s with db := applyOffchainEvents extend s.db f, clean := cl } := by
  obtain ⟨lp, hl, hlt, _⟩ := (inv_reach hr).synced hi
  unfold applyOffchainEvents
  rw [hl]
  simp only [Option.getD_some]
  by_cases h : lp ≤ f
  · obtain ⟨cl, h1, _⟩ := loop_reach cfg extend (f - lp) lp s hr hi hl (by omega)
    rw [show f + 1 - (lp + 1) = f - lp by omega]
    exact ⟨cl, h1⟩
  · rw [show f + 1 - (lp + 1) = 0 by omega]
    exact ⟨s.clean, hr⟩

/-- The index after a completed run of the worker. -/
theorem inv_index {s : Sys} (hv : Inv s) (hi : s.db.indexed = true) (f lp : Nat)
    (hl : s.db.last = some lp) (hlf : lp < f) (hf : f < s.now) (hs : s.since ≤ f) (m : MsaId) (k : AccountId) :
    k ∈ (applyOffchainEvents (fun _ => true) s.db f).keysOf m ↔ s.hist f k = some m := by
  obtain ⟨cl, h1, h2, h3⟩ := loop_worked (R := Inv) (fun s lp j hv hi hl hn => inv_work hv lp j hi hl hn)
    (fun _ => true) (f - lp) lp s hv hi hl (by omega)
  have hcl : cl = true := h2 (Or.inr (by omega)) (fun _ => rfl)
  have hlast := h3 (fun _ => rfl)
  subst hcl
  have happ : applyOffchainEvents (fun _ => true) s.db f =
      applyLoop (fun _ => true) (f - lp) (lp + 1) s.db := by
    unfold applyOffchainEvents
    rw [hl]
    simp only [Option.getD_some]
    rw [show f + 1 - (lp + 1) = f - lp by omega]
  rw [happ]
  have hidx : (applyLoop (fun _ => true) (f - lp) (lp + 1) s.db).indexed = true := by
    by_contra hne
    simp only [Bool.not_eq_true] at hne
    -- the flag is never cleared
    have : ∀ (n b : Nat) (d : Db), d.indexed = true →
        (applyLoop (fun _ => true) n b d).indexed = true := by
      intro n
      induction n with
      | zero => intro b d h; exact h
      | succ n ih =>
        intro b d h
        have hw : ∀ (ws : List Write) (d : Db), d.indexed = true → (d.writes ws).indexed = true := by
          intro ws
          induction ws with
          | nil => intro d h; exact h
          | cons w ws ihw =>
            intro d h
            simp only [Db.writes, List.foldl_cons]
            apply ihw
            cases w <;> simp [Db.write, h]
        simp only [applyLoop]
        split
        · exact hw _ _ h
        · exact ih _ _ (hw _ _ h)
    rw [this _ _ _ hi] at hne
    cases hne
  obtain ⟨lp', hl', _, ht⟩ := h1.synced hidx
  have hlf' : lp' = f := by
    have hl' : (applyLoop (fun _ => true) (f - lp) (lp + 1) s.db).last = some lp' := hl'
    rw [hlast] at hl'
    simp only [Option.some.injEq] at hl'
    omega
  subst hlf'
  have := ht lp' hs (by show lp' ≤ s.now; omega) (Or.inr ⟨rfl, rfl⟩) m k
  simp only [Nat.sub_self] at this
  unfold target storedFrom at this
  simp only [List.range'_zero, List.flatMap_nil, lastVerdict, Option.getD_none] at this
  unfold inIndex has at this
  rw [decide_eq_decide] at this
  exact this

/-- C17 (the full statement also allows the initial indexing to be interrupted and repeated, where it
is false: `C17_interrupted_initial_index_stale`). Take any history of transactions, blocks, one
completed initial indexing and worker runs that each stopped after an arbitrary number of database
writes. If the worker then runs to finalized block `f`, which is not older than the block the initial
index was read from, the keys stored for every account are exactly the keys the chain had for this
account at the end of block `f`. -/
theorem C17_index_equals_chain_partial (cfg : Msa.Config) (s : Sys) (hr : Reach cfg s)
    (hi : s.db.indexed = true) (f lp : Nat) (hl : s.db.last = some lp) (hlf : lp < f) (hf : f < s.now)
    (hs : s.since ≤ f) (m : MsaId) (k : AccountId) :
    k ∈ (applyOffchainEvents (fun _ => true) s.db f).keysOf m ↔ s.hist f k = some m :=
  inv_index (inv_reach hr) hi f lp hl hlf hf hs m k

/-- C17, crash points: wherever worker runs stopped before, the state reached afterwards is again one
to which `C17_index_equals_chain_partial` applies; in particular the lock extension failing in the
middle of a run is harmless. -/
theorem C17_interrupted_run_recovers_partial (cfg : Msa.Config) (s : Sys) (hr : Reach cfg s)
    (hi : s.db.indexed = true) (extend : Nat → Bool) (f0 f lp : Nat) (hf0 : f0 < s.now)
    (hl : (applyOffchainEvents extend s.db f0).last = some lp)
    (hidx : (applyOffchainEvents extend s.db f0).indexed = true)
    (hlf : lp < f) (hf : f < s.now) (hs : s.since ≤ f) (m : MsaId) (k : AccountId) :
    k ∈ (applyOffchainEvents (fun _ => true) (applyOffchainEvents extend s.db f0) f).keysOf m ↔
      s.hist f k = some m := by
  obtain ⟨cl, h⟩ := worker_reach hr hi extend f0 hf0
  exact C17_index_equals_chain_partial cfg _ h hidx f lp hl hlf hf hs m k

/-! ## A concrete history -/

open Msa in
/-- Block 0: key 100 creates account 1 and key 200 account 2. Blocks 1, 2 empty. Initial indexing from
the state of block 2 with block 1 finalized. Block 3: key 201 joins account 2 and key 200 leaves. -/
def exSys : Sys :=
  let s := ((Sys.init.tx exCfg ⟨exEnv 0, .signed 100, .create⟩).tx exCfg
    ⟨exEnv 0, .signed 200, .create⟩).next.next.next
  let s := { s with
    db := initialIndex [(200, 2), (100, 1)] 1 none s.db, since := 2, clean := true }
  ((s.tx exCfg ⟨exEnv 3, .signed 200, .addPublicKeyToMsa 200 1 2 ⟨2, 50, 201⟩⟩).tx exCfg
    ⟨exEnv 3, .signed 201, .deleteMsaPublicKey 200⟩).next

theorem exSys_reach : Reach Msa.exCfg exSys := by
  unfold exSys
  refine .step (.step (.step (.step (.step (.step (.step (.step (.step (.init true) (.tx _ _ ?_)) (.tx _ _ ?_))
    (.next _)) (.next _)) (.next _)) (.initial _ _ 1 2 (by decide) (by decide) (by decide) ?_ (by decide)
    (by decide) rfl)) (.tx _ _ ?_)) (.tx _ _ ?_)) (.next _)
  · decide
  · decide
  · intro k m
    have h : ((((Sys.init.tx Msa.exCfg ⟨Msa.exEnv 0, .signed 100, .create⟩).tx Msa.exCfg
      ⟨Msa.exEnv 0, .signed 200, .create⟩).next.next.next).chain).keyToMsa.entries =
        [(200, 2), (100, 1)] := by decide
    rw [← h]
    exact SMap.mem_entries_iff _ _ _
  · decide
  · decide

/-- The hypotheses of C17 hold for `exSys`, and the stored keys change as the chain did; stopping the
worker after its first or fourth write makes no difference in the end. -/
example : exSys.db.indexed = true ∧ exSys.db.last = some 0 ∧ exSys.since ≤ 3 ∧ 3 < exSys.now ∧
    exSys.db.keysOf 2 = [200] ∧
    (applyOffchainEvents (fun _ => true) exSys.db 3).keysOf 2 = [201] ∧
    (applyOffchainEvents (fun _ => true) exSys.db 3).keysOf 1 = [100] := by decide

example : let d := applyOffchainEvents (fun _ => true) exSys.db 2
    (List.range 6).map (fun j =>
      (applyOffchainEvents (fun _ => true) (d.writes ((blockWrites d 3).take j)) 3).keysOf 2) =
    [[201], [201], [201], [201], [201], [201]] := by decide

/-- The case the code gets wrong. The first initial indexing, with block 5 finalized, stops after its
first key 200 (the lock expired or the node stopped). In block 6 account 2 replaces key 200 by key 201.
The next worker run sees block 8 finalized, indexes the current keys to completion and continues after
block 7: the deletion in block 6 is never read, and key 200 stays listed for account 2 for good. -/
theorem C17_interrupted_initial_index_stale :
    let first := worker [(200, 2), (100, 1)] 5 (some 1) (fun _ => true) Db.init
    let block6 := (indexAll 6 [.added 2 201, .deleted 2 200] (first, 0)).1
    let second := worker [(201, 2), (100, 1)] 8 none (fun _ => true) block6
    second.indexed = true ∧ second.last = some 8 ∧ second.keysOf 2 = [200, 201] ∧
      (applyOffchainEvents (fun _ => true) second 100).keysOf 2 = [200, 201] := by decide

/-- The lists contain no key twice. -/
theorem C17_no_duplicates (ks : List AccountId) (es : List KeyEvent) (h : ks.Nodup) :
    (processEvents ks es).Nodup := processEvents_nodup es ks h

end Verif.Offchain
