import Verif.Offchain.Props
/-!
# Runs of the off-chain worker that overlap

Source: `pallets/msa/src/offchain_storage.rs`.

Substrate starts the worker of a block when the block is imported, in a thread of its own, whether or not the worker of
an earlier block has ended. What keeps the runs apart are the two locks in the database, offchain_storage.rs 110-114 and
155-159. Here every single access to the database is a step, and the steps of all runs, of the transactions of the open
block and of the clock come in any order.

The locks (`sp_runtime::offchain::storage_lock`) belong to the framework and are modelled from their published behaviour:
a lock is a deadline in the database. `try_lock` sets it if there is none or the one there has expired; dropping the guard
removes it, whoever set it; `extend_lock` replaces it if there is one that has not expired, whoever set it. A deadline is a
time and a block number, and has expired when both have passed; the block number is that of the block of the worker that
looks, which does not change while it runs.

The lock of each account (`process_offchain_events`, 350-357) and the lock taken in `init_last_processed_block` (253-258)
are assigned to `_`, which drops the guard at once: they are released before anything is read or written. They only make
a run wait while the lock is taken; this is kept for the second of the two, whose lock is the same as in 155-159.
-/

namespace Verif.Offchain

open Msa (KeyEvent)

/-- `BlockAndTimeDeadline` of the framework. -/
structure Deadline where
  time : Nat
  block : Nat
  deriving DecidableEq, Repr

/-- Where a run is in the program, with its local variables. -/
inductive Pc
  /-- before `try_lock`, line 115 -/
  | start
  /-- reads `is_initial_indexed`, 116-119 -/
  | flag
  /-- `init_last_processed_block`, 124 and 253-267 -/
  | initLast
  /-- 127-131: reads the list of the account of the next key, 358-362; `count` keys are done -/
  | initGet (rest : List (AccountId × MsaId)) (count : Nat)
  /-- writes it, 383 -/
  | initSet (m : MsaId) (keys : List AccountId) (rest : List (AccountId × MsaId)) (count : Nat)
  /-- `extend_lock`, 134-141 -/
  | initExtend (rest : List (AccountId × MsaId)) (count : Nat)
  /-- 144 -/
  | initDone
  /-- the guard is dropped, 150 -/
  | unlock1
  /-- `try_lock`, 161 -/
  | apply
  /-- 164-171 -/
  | readLast
  /-- 174-175 -/
  | loop (b : Nat)
  /-- `read_offchain_events`, 271-275: reads the number of events -/
  | count (b : Nat)
  /-- 277-289: reads event `i` of `n` -/
  | event (b i n : Nat) (read : List KeyEvent)
  /-- 337-341: reads the list of the next account, 358-362 -/
  | keysGet (b : Nat) (todo : List MsaId) (es : List KeyEvent)
  /-- writes it, 383 -/
  | keysSet (b : Nat) (m : MsaId) (keys : List AccountId) (todo : List MsaId) (es : List KeyEvent)
  /-- `clean_offchain_events`, 295-298 -/
  | cleanCount (b : Nat)
  /-- 299-304 -/
  | cleanEvt (b i n : Nat)
  /-- 305 -/
  | cleanCnt (b : Nat)
  /-- `extend_lock`, 177-180 -/
  | extend (b : Nat)
  /-- 182 -/
  | setLast (b : Nat)
  /-- the guard is dropped, 188 -/
  | unlock2
  | done

/-- A run of `do_offchain_worker`, 72-83: of block `block`, with block `fin` finalized, and with the keys of the state of
its block. -/
structure Thread where
  block : Nat
  fin : Nat
  accounts : List (AccountId × MsaId)
  pc : Pc

/-- A node: chain and database, the locks, the clock in milliseconds, and the runs, in the order in which they were
started. -/
structure Net where
  sys : Sys
  lock1 : Option Deadline
  lock2 : Option Deadline
  time : Nat
  threads : List Thread

/-- A new node. -/
def Net.init (clears : Bool := true) : Net := ⟨Sys.init clears, none, none, 0, []⟩

/-- A write to the database. -/
def Net.write (n : Net) (w : Write) : Net := { n with sys := { n.sys with db := n.sys.db.write w } }

/-- `has_expired`, at time `time` and seen by the worker of block `block`. -/
def expired (time block : Nat) (d : Deadline) : Bool := decide (d.time < time) && decide (d.block < block)

/-- Does `try_lock` succeed? -/
def free (time block : Nat) : Option Deadline → Bool
  | none => true
  | some d => expired time block d

/-- Does `extend_lock` succeed? -/
def extendable (time block : Nat) : Option Deadline → Bool
  | none => false
  | some d => !expired time block d

/-- Deadline of the first lock, lines 33-36: 3 seconds and 40 blocks. -/
def deadline1 (n : Net) (t : Thread) : Deadline := ⟨n.time + 3000, t.block + 40⟩
/-- Deadline of the second lock, lines 50-54: 5 seconds and 20 blocks. -/
def deadline2 (n : Net) (t : Thread) : Deadline := ⟨n.time + 5000, t.block + 20⟩

/-- The next step of a run. -/
def advance (n : Net) (t : Thread) : Net × Pc :=
  match t.pc with
  | .start => if free n.time t.block n.lock1 then ({ n with lock1 := some (deadline1 n t) }, .flag) else (n, .done)
  | .flag => (n, if n.sys.db.indexed then .unlock1 else .initLast)
  | .initLast => if n.lock2 = none then (n.write (.setLast (t.fin - 1)), .initGet t.accounts 0) else (n, .initLast)
  | .initGet [] _ => (n, .initDone)
  | .initGet ((k, m) :: rest) c => (n, .initSet m (processEvents (n.sys.db.keysOf m) [.added m k]) rest c)
  | .initSet m ks rest c =>
    (n.write (.setKeys m ks), if (c + 1) % 1000 = 0 then .initExtend rest (c + 1) else .initGet rest (c + 1))
  | .initExtend rest c =>
    if extendable n.time t.block n.lock1 then ({ n with lock1 := some (deadline1 n t) }, .initGet rest c) else (n, .unlock1)
  | .initDone => ({ n with sys := { n.sys with db := n.sys.db.write .setIndexed, since := t.block } }, .unlock1)
  | .unlock1 => ({ n with lock1 := none }, .apply)
  | .apply => if free n.time t.block n.lock2 then ({ n with lock2 := some (deadline2 n t) }, .readLast) else (n, .done)
  | .readLast => (n, .loop (n.sys.db.last.getD (t.fin - 5) + 1))
  | .loop b => (n, if b ≤ t.fin then .count b else .unlock2)
  | .count b => (n, .event b 1 ((n.sys.db.cnt.get b).getD 0) [])
  | .event b i c read =>
    if i ≤ c then (n, .event b (i + 1) c (read ++ (n.sys.db.evt.get (b, i)).toList)) else (n, .keysGet b (msas read) read)
  | .keysGet b [] es => (n, if es = [] then .setLast b else .cleanCount b)
  | .keysGet b (m :: todo) es =>
    (n, .keysSet b m (processEvents (n.sys.db.keysOf m) (es.filter (fun e => msaOf e == m))) todo es)
  | .keysSet b m ks todo es => (n.write (.setKeys m ks), .keysGet b todo es)
  | .cleanCount b => (n, .cleanEvt b 1 ((n.sys.db.cnt.get b).getD 0))
  | .cleanEvt b i c =>
    if i ≤ c then (if n.sys.db.clears then n.write (.clearEvt b i) else n, .cleanEvt b (i + 1) c) else (n, .cleanCnt b)
  | .cleanCnt b => (if n.sys.db.clears then n.write (.clearCnt b) else n, .extend b)
  | .extend b =>
    if extendable n.time t.block n.lock2 then ({ n with lock2 := some (deadline2 n t) }, .setLast b) else (n, .unlock2)
  | .setLast b => (n.write (.setLast b), .loop (b + 1))
  | .unlock2 => ({ n with lock2 := none }, .done)
  | .done => (n, .done)

/-- What happens to a node. -/
inductive Act
  /-- a transaction in the open block -/
  | tx (st : Msa.Step)
  /-- the open block is closed -/
  | next
  /-- time passes -/
  | tick (ms : Nat)
  /-- the worker of a block is started -/
  | start (block fin : Nat) (accounts : List (AccountId × MsaId))
  /-- run number `i` makes a step -/
  | step (i : Nat)
  /-- the node is stopped and started again -/
  | restart

/-- Effect. -/
def Net.act (cfg : Msa.Config) (n : Net) : Act → Net
  | .tx st => { n with sys := n.sys.tx cfg st }
  | .next => { n with sys := n.sys.next }
  | .tick ms => { n with time := n.time + ms }
  | .start block fin accounts => { n with threads := n.threads ++ [⟨block, fin, accounts, .start⟩] }
  | .step i =>
    match n.threads[i]? with
    | none => n
    | some t => { (advance n t).1 with threads := n.threads.set i { t with pc := (advance n t).2 } }
  | .restart => { n with threads := [] }

/-- A history. -/
def Net.run (cfg : Msa.Config) (n : Net) (h : List Act) : Net := h.foldl (Net.act cfg) n

/-- What can happen: there are at most 65535 key events in a block; the worker of a closed block runs with a block
finalized that is not later, and sees the keys of its block. -/
def Possible (cfg : Msa.Config) (n : Net) : Act → Prop
  | .tx st => n.sys.count + (emitted n.sys.chain (Msa.applyTx cfg n.sys.chain st)).length ≤ 65535
  | .start block fin accounts => 1 ≤ fin ∧ fin ≤ block ∧ block < n.sys.now ∧
      ∀ k m, (k, m) ∈ accounts ↔ n.sys.hist block k = some m
  | _ => True

/-- All of a history can happen. -/
def AllPossible (cfg : Msa.Config) : Net → List Act → Prop
  | _, [] => True
  | n, a :: h => Possible cfg n a ∧ AllPossible cfg (n.act cfg a) h

/-- Is a run between taking and releasing the first lock? -/
def Pc.inside1 : Pc → Bool
  | .flag | .initLast | .initGet .. | .initSet .. | .initExtend .. | .initDone | .unlock1 => true
  | _ => false

/-- Is a run between taking and releasing the second lock? -/
def Pc.inside2 : Pc → Bool
  | .readLast | .loop _ | .count _ | .event .. | .keysGet .. | .keysSet .. | .cleanCount _ | .cleanEvt .. | .cleanCnt _
  | .extend _ | .setLast _ | .unlock2 => true
  | _ => false

/-- Is a run in the middle of the initial indexing? -/
def Pc.indexing : Pc → Bool
  | .initLast | .initGet .. | .initSet .. | .initExtend .. | .initDone => true
  | _ => false

end Verif.Offchain
