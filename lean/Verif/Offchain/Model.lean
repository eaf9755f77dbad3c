import Verif.Msa.Model
/-!
# Model of the off-chain key index of the MSA pallet

Source: `pallets/msa/src/offchain_storage.rs`, `common/primitives/src/offchain.rs`.

The persistent off-chain database is modelled as one map per kind of key; `Offchain.Props` (C18) shows
that the byte strings used as keys for these maps never collide. Not modelled: the HTTP request that
finds the finalized block (its result is a parameter), wall-clock lock deadlines and two workers running
at once (the locks are assumed to exclude each other). Forks are in `Offchain.Fork`.
-/

namespace Verif.Offchain

open Msa (KeyEvent)

/-! ## Storage keys as bytes -/

/-- `BLOCK_EVENT_KEY`, offchain_storage.rs 27: `frequency::block_event::msa::`. -/
def blockEventPrefix : Bytes :=
  [102, 114, 101, 113, 117, 101, 110, 99, 121, 58, 58, 98, 108, 111, 99, 107, 95, 101, 118, 101, 110,
   116, 58, 58, 109, 115, 97, 58, 58]

/-- `BLOCK_EVENT_COUNT_KEY`, offchain_storage.rs 30: `frequency::block_event::msa::count::`. -/
def blockEventCountPrefix : Bytes :=
  [102, 114, 101, 113, 117, 101, 110, 99, 121, 58, 58, 98, 108, 111, 99, 107, 95, 101, 118, 101, 110,
   116, 58, 58, 109, 115, 97, 58, 58, 99, 111, 117, 110, 116, 58, 58]

/-- Key of event number `i` of a block, offchain_storage.rs 92-97. -/
def eventKey (block i : Nat) : Bytes := blockEventPrefix ++ (Scale.u32 block ++ Scale.u16 i)

/-- Key of the event counter of a block, offchain_storage.rs 101. -/
def countKey (block : Nat) : Bytes := blockEventCountPrefix ++ Scale.u32 block

/-- `numtoa(10, _)`: decimal digits, most significant first, as ASCII. -/
def decimal (n : Nat) : Bytes :=
  if n < 10 then [UInt8.ofNat (48 + n)] else decimal (n / 10) ++ [UInt8.ofNat (48 + n % 10)]
  termination_by n

/-- `MSA_ACCOUNT_LOCK_NAME_PREFIX`, common/primitives/src/offchain.rs 10: `Msa::ofw::lock::`. -/
def lockPrefix : Bytes := [77, 115, 97, 58, 58, 111, 102, 119, 58, 58, 108, 111, 99, 107, 58, 58]

/-- `MSA_ACCOUNT_STORAGE_NAME_PREFIX`, offchain.rs 12: `Msa::ofw::keys::`. -/
def keysPrefix : Bytes := [77, 115, 97, 58, 58, 111, 102, 119, 58, 58, 107, 101, 121, 115, 58, 58]

/-- `get_msa_account_lock_name`, common/primitives/src/offchain.rs 14-17. -/
def lockName (m : MsaId) : Bytes := lockPrefix ++ decimal m

/-- `get_msa_account_storage_key_name`, common/primitives/src/offchain.rs 19-22. -/
def keysName (m : MsaId) : Bytes := keysPrefix ++ decimal m

/-- The fixed names of offchain_storage.rs 39-48: `Msa::ofw::initial-index-lock`,
`Msa::ofw::initial-indexed`, `Msa::ofw::last-processed-block-lock`,
`Msa::ofw::last-processed-block`. -/
def fixedNames : List Bytes :=
  [[77, 115, 97, 58, 58, 111, 102, 119, 58, 58, 105, 110, 105, 116, 105, 97, 108, 45, 105, 110, 100,
    101, 120, 45, 108, 111, 99, 107],
   [77, 115, 97, 58, 58, 111, 102, 119, 58, 58, 105, 110, 105, 116, 105, 97, 108, 45, 105, 110, 100,
    101, 120, 101, 100],
   [77, 115, 97, 58, 58, 111, 102, 119, 58, 58, 108, 97, 115, 116, 45, 112, 114, 111, 99, 101, 115,
    115, 101, 100, 45, 98, 108, 111, 99, 107, 45, 108, 111, 99, 107],
   [77, 115, 97, 58, 58, 111, 102, 119, 58, 58, 108, 97, 115, 116, 45, 112, 114, 111, 99, 101, 115,
    115, 101, 100, 45, 98, 108, 111, 99, 107]]

/-! ## The database and the worker -/

/-- Persistent off-chain storage. -/
structure Db where
  /-- values under `eventKey` -/
  evt : SMap (Nat × Nat) KeyEvent
  /-- values under `countKey` -/
  cnt : SMap Nat Nat
  /-- values under `keysName` -/
  keys : SMap MsaId (List AccountId)
  /-- `LAST_PROCESSED_BLOCK_STORAGE_NAME` -/
  last : Option Nat
  /-- `MSA_INITIAL_INDEXED_STORAGE_NAME` -/
  indexed : Bool
  /-- Not stored but a property of the node: does `offchain_index::clear`, called by the worker, reach the
  database? The function belongs to block execution. Substrate collects such changes with the other changes of the
  call and writes them when a block is imported; of a worker, which imports nothing, it drops them. -/
  clears : Bool

/-- Empty database. -/
def Db.init (clears : Bool := true) : Db := ⟨∅, ∅, ∅, none, false, clears⟩

/-- Account an event belongs to. -/
def msaOf : KeyEvent → MsaId
  | .created m _ => m
  | .added m _ => m
  | .deleted m _ => m

/-- `offchain_index_event`, offchain_storage.rs 85-105. `count` is `OffchainIndexEventCount` (u16,
saturating); returns the database and the new count. `IndexedEvent::map` (240-250) is the identity on
`KeyEvent`: other events are not indexed. -/
def indexEvent (db : Db) (block count : Nat) (e : KeyEvent) : Db × Nat :=
  let c := min (count + 1) 65535
  ({ db with evt := db.evt.insert (block, c) e, cnt := db.cnt.insert block c }, c)

/-- `read_offchain_events`, offchain_storage.rs 269-291. -/
def readEvents (db : Db) (b : Nat) : List KeyEvent :=
  (List.range' 1 ((db.cnt.get b).getD 0)).filterMap (fun i => db.evt.get (b, i))

/-- Loop body of `process_offchain_events`, offchain_storage.rs 364-381. -/
def processOne (keys : List AccountId) : KeyEvent → List AccountId
  | .created _ k => if keys.contains k then keys else keys ++ [k]
  | .added _ k => if keys.contains k then keys else keys ++ [k]
  | .deleted _ k => if keys.contains k then keys.filter (fun x => x != k) else keys

/-- `process_offchain_events` as a function of the stored list, offchain_storage.rs 350-383. -/
def processEvents (keys : List AccountId) (es : List KeyEvent) : List AccountId :=
  es.foldl processOne keys

/-- Insert into an ascending list without repetition (the `BTreeMap` keys). -/
def insertAsc (m : Nat) : List Nat → List Nat
  | [] => [m]
  | x :: xs => if m < x then m :: x :: xs else if m = x then x :: xs else x :: insertAsc m xs

/-- Accounts touched by events, ascending: keys of `events_by_msa_id`, offchain_storage.rs 319-334. -/
def msas (es : List KeyEvent) : List MsaId := es.foldl (fun acc e => insertAsc (msaOf e) acc) []

/-- One atomic write to the database. -/
inductive Write
  | setKeys (m : MsaId) (ks : List AccountId)
  | clearEvt (b i : Nat)
  | clearCnt (b : Nat)
  | setLast (b : Nat)
  | setIndexed

/-- Effect of a write. -/
def Db.write (db : Db) : Write → Db
  | .setKeys m ks => { db with keys := db.keys.insert m ks }
  | .clearEvt b i => { db with evt := db.evt.erase (b, i) }
  | .clearCnt b => { db with cnt := db.cnt.erase b }
  | .setLast b => { db with last := some b }
  | .setIndexed => { db with indexed := true }

/-- Effect of several writes in order. -/
def Db.writes (db : Db) (ws : List Write) : Db := ws.foldl Db.write db

/-- Keys stored for an account (`unwrap_or_default`). -/
def Db.keysOf (db : Db) (m : MsaId) : List AccountId := (db.keys.get m).getD []

/-- Writes of `process_offchain_events` for every touched account, offchain_storage.rs 336-341. -/
def keyWrites (db : Db) (b : Nat) : List Write :=
  let es := readEvents db b
  (msas es).map (fun m => .setKeys m (processEvents (db.keysOf m) (es.filter (fun e => msaOf e == m))))

/-- Writes of `clean_offchain_events`, offchain_storage.rs 294-307. -/
def cleanWrites (db : Db) (b : Nat) : List Write :=
  if db.clears then (List.range' 1 ((db.cnt.get b).getD 0)).map (fun i => .clearEvt b i) ++ [.clearCnt b] else []

/-- Writes of `reverse_map_msa_keys`, offchain_storage.rs 310-347; cleaning happens only when events
were found. -/
def reverseMapWrites (db : Db) (b : Nat) : List Write :=
  keyWrites db b ++ (if readEvents db b = [] then [] else cleanWrites db b)

/-- All writes made for one block, in order: `reverse_map_msa_keys` and then the new last processed
block, offchain_storage.rs 176-184. Stopping after any prefix of this list is a crash (or, between the
last two parts, a failed lock extension, lines 177-180). -/
def blockWrites (db : Db) (b : Nat) : List Write := reverseMapWrites db b ++ [.setLast b]

/-- The loop of `apply_offchain_events`, offchain_storage.rs 173-184: blocks `start ..`, `n` of them.
`extend b` says whether extending the lock succeeds in block `b`. -/
def applyLoop (extend : Nat → Bool) : Nat → Nat → Db → Db
  | 0, _, db => db
  | n + 1, b, db =>
    let db1 := db.writes (reverseMapWrites db b)
    if readEvents db b ≠ [] ∧ extend b = false then db1
    else applyLoop extend n (b + 1) (db1.write (.setLast b))

/-- `apply_offchain_events`, offchain_storage.rs 154-188, with the lock obtained. -/
def applyOffchainEvents (extend : Nat → Bool) (db : Db) (finalized : Nat) : Db :=
  let start := db.last.getD (finalized - 5) + 1
  applyLoop extend (finalized + 1 - start) start db

/-- Writes of `offchain_index_initial_state`, offchain_storage.rs 109-151 with
`init_last_processed_block` (253-267): `accounts` is the iteration of `PublicKeyToMsaId`. -/
def initialWrites : List (AccountId × MsaId) → Db → List Write
  | [], _ => []
  | (k, m) :: rest, db =>
    let w := Write.setKeys m (processEvents (db.keysOf m) [.added m k])
    w :: initialWrites rest (db.write w)

/-- The initial indexing. `stop = some n`: the lock expired (or the node stopped) after `n` keys, so
the flag is not set. -/
def initialIndex (accounts : List (AccountId × MsaId)) (finalized : Nat) (stop : Option Nat) (db : Db) :
    Db :=
  if db.indexed then db
  else
    let db1 := db.write (.setLast (finalized - 1))
    match stop with
    | none => (db1.writes (initialWrites accounts db1)).write .setIndexed
    | some n => db1.writes ((initialWrites accounts db1).take n)

/-- `do_offchain_worker`, offchain_storage.rs 72-84, both locks obtained. An interrupted initial index
still returns `Released`, so the events are applied. -/
def worker (accounts : List (AccountId × MsaId)) (finalized : Nat) (stop : Option Nat)
    (extend : Nat → Bool) (db : Db) : Db :=
  applyOffchainEvents extend (initialIndex accounts finalized stop db) finalized

end Verif.Offchain
