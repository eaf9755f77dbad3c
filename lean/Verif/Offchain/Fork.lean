import Verif.Offchain.Props
/-!
# A node that imports forks

Source: `pallets/msa/src/offchain_storage.rs`, `pallets/msa/src/lib.rs` 400-411.

A node executes every block it imports, also blocks that do not become part of the finalized chain, and what a block
writes to the off-chain index (`offchain_index::set`) is in the database of the node from then on: Substrate stores these
writes with the block, whether or not it is or stays the best one. The keys of the writes contain the number of the
block, not its hash.

A block is given by everything up to it, as its hash would: two different blocks are different values. Not modelled: the
HTTP request for the hash of the finalized block (its answer is the finalized block of the node), pruning, warp sync (blocks
that are not executed).
-/

namespace Verif.Offchain

open Msa (KeyEvent)

/-- A block: the transactions of it and of its ancestors, newest first. The empty list is genesis. The parent is the
tail, the number the length, and the ancestors are the suffixes. -/
abbrev Block := List (List Msa.Step)

/-- State of the pallet at the end of a block. -/
def stateOf (cfg : Msa.Config) : Block → Msa.State
  | [] => Msa.State.init
  | body :: parent => body.foldl (Msa.applyTx cfg) (stateOf cfg parent)

/-- Key events of transactions executed one after the other. -/
def bodyEvents (cfg : Msa.Config) : Msa.State → List Msa.Step → List KeyEvent
  | _, [] => []
  | s, st :: rest => emitted s (Msa.applyTx cfg s st) ++ bodyEvents cfg (Msa.applyTx cfg s st) rest

/-- Key events of a block. -/
def eventsOf (cfg : Msa.Config) : Block → List KeyEvent
  | [] => []
  | body :: parent => bodyEvents cfg (stateOf cfg parent) body

/-- Ancestor of a block with a given number. -/
def ancestor (b : Block) (n : Nat) : Block := b.drop (b.length - n)

/-- `System::block_hash(n)` in the state of block `b`: the hashes of the ancestors; that of `b` itself is not known in
this state. The hash of a block stands for the block. -/
def blockHash (b : Block) (n : Nat) : Option Block := if n < b.length then some (ancestor b n) else none

open Classical in
/-- `get_finalized_block_number`, offchain_storage.rs 440-482, called by the worker of block `b` while the node has
finalized block `fin`: the numbers from that of `b` downwards, at most 1000 of them (line 60) and none that is zero. The hash
of an unknown block is a default value, which is not the hash of a block. -/
noncomputable def finalizedNumber (b fin : Block) : Option Nat :=
  (((List.range 1000).map (fun i => b.length - i)).filter (fun n => 0 < n)).find?
    (fun n => decide (blockHash b n = some fin))

/-- A node. `imported`: the blocks it has, the one imported last first. `read` and `clean` are bookkeeping of the
specification: the block whose state the initial indexing read, and whether the last step of the worker finished its block. -/
structure Node where
  imported : List Block
  fin : Block
  db : Db
  read : Block
  clean : Bool

/-- A new node has genesis only. -/
def Node.init (clears : Bool := true) : Node := ⟨[[]], [], Db.init clears, [], true⟩

/-- Import of a block: its key events are written under its number; lib.rs 400-404 starts the count at zero. -/
def Node.importBlock (cfg : Msa.Config) (n : Node) (b : Block) : Node :=
  { n with imported := b :: n.imported, db := (indexAll b.length (eventsOf cfg b) (n.db, 0)).1 }

/-- `do_offchain_worker` (offchain_storage.rs 72-84) of block `b`, with all locks obtained and all lock extensions
successful. `accounts` is the iteration of `PublicKeyToMsaId` in the state of `b`. -/
noncomputable def Node.runWorker (n : Node) (b : Block) (accounts : List (AccountId × MsaId)) : Db :=
  match finalizedNumber b n.fin with
  | none => n.db
  | some f => worker accounts f none (fun _ => true) n.db

/-- `accounts` lists the keys of the state of block `b`. -/
def Lists (cfg : Msa.Config) (b : Block) (accounts : List (AccountId × MsaId)) : Prop :=
  ∀ k m, (k, m) ∈ accounts ↔ (stateOf cfg b).keyToMsa.get k = some m

/-- What happens to a node. -/
inductive NodeStep (cfg : Msa.Config) : Node → Node → Prop
  /-- it imports a block that is new to it on any block it has; at most 65535 key events in a block -/
  | imports (n : Node) (parent : Block) (body : List Msa.Step) (hp : parent ∈ n.imported)
      (hnew : body :: parent ∉ n.imported) (he : (eventsOf cfg (body :: parent)).length ≤ 65535)
      (hb : ∀ st ∈ body, st.env.block = parent.length + 1) :
      NodeStep cfg n (n.importBlock cfg (body :: parent))
  /-- a descendant of the finalized block is finalized -/
  | finalize (n : Node) (b : Block) (hb : b ∈ n.imported) (hf : n.fin <:+ b) : NodeStep cfg n { n with fin := b }
  /-- the worker of block `b` does the initial indexing, to the end -/
  | initial (n : Node) (b : Block) (accounts : List (AccountId × MsaId)) (f : Nat) (hb : b ∈ n.imported)
      (hf : finalizedNumber b n.fin = some f) (ha : Lists cfg b accounts)
      (hi : n.db.indexed = false) (hl : n.db.last = none) (hk : n.db.keys = ∅) :
      NodeStep cfg n { n with db := initialIndex accounts f none n.db, read := b, clean := true }
  /-- the worker of block `b` handles the next number and stops after `j` writes -/
  | work (n : Node) (b : Block) (f lp j : Nat) (hb : b ∈ n.imported) (hf : finalizedNumber b n.fin = some f)
      (hi : n.db.indexed = true) (hl : n.db.last = some lp) (hn : lp + 1 ≤ f) :
      NodeStep cfg n
        { n with
          db := n.db.writes ((blockWrites n.db (lp + 1)).take j)
          clean := decide ((n.db.writes ((blockWrites n.db (lp + 1)).take j)).last = some (lp + 1)) }

/-- Nodes as they can become. -/
inductive NodeReach (cfg : Msa.Config) : Node → Prop
  | init (clears : Bool) : NodeReach cfg (Node.init clears)
  | step {n n' : Node} : NodeReach cfg n → NodeStep cfg n n' → NodeReach cfg n'

end Verif.Offchain
