import Verif.Pool.Model
/-!
# Development nodes

How a node without relay chain makes blocks, `node/service/src/block_sealing.rs`: a stream of commands, from the RPC and,
depending on the mode, from the transaction pool or a timer, and a loop that runs them.

Not part of the repository and modelled from its published behaviour: the pool (`Pool`), which notifies of every
transaction that is ready when it is submitted, but not of those that become ready with it, over a channel of 1024 places
(`sc-transaction-pool`); and `seal_block` (`sc-consensus-manual-seal`). Which of the ready transactions fit in a block and
which turn out to be invalid is left to `propose`.

Simplifications: blocks are built on the best block (`parent_hash` of the RPC is left out), import does not fail, and a
block consists of its transactions without the inherent for the time.
-/

namespace Verif.Sealing

open Verif.Pool

/-- `SealingMode`, node/cli-opt/src/lib.rs 6-13, with the option `sealing_create_empty_blocks` of the interval mode,
node/cli/src/cli.rs 104-107. -/
inductive Mode where
  | instant
  | manual
  | interval (createEmpty : Bool)
  deriving DecidableEq, Repr

/-- What `propose` does with the ready transactions: put in the block, or removed from the pool as invalid. -/
structure Proposal where
  included : List Tx
  invalid : List Tx

/-- What comes back to the sender of a command: the number of the block, the error `EmptyTransactionPool`, or nothing, if
its channel is dropped. -/
inductive Answer where
  | created (block : Nat)
  | emptyPool
  | dropped
  deriving DecidableEq, Repr

/-- A development node. `notes`: notifications of the pool that have not been handled. `finalized`: how many of the blocks are
finalized. -/
structure Node where
  pool : Pool
  notes : Nat
  blocks : List (List Tx)
  finalized : Nat
  answers : List Answer

/-- A new node. -/
def Node.new : Node := ⟨.empty, 0, [], 0, []⟩

/-- Places in the channel of notifications. -/
def places : Nat := 1024

/-- A transaction comes to the pool. If it is ready there is a notification, unless the channel is full. In the instant
mode they are commands, block_sealing.rs 121-129; otherwise nobody listens. -/
def submit (mode : Mode) (n : Node) (t : Tx) : Node :=
  let pool := n.pool.add t
  let ready := decide (t ∉ n.pool.ready ∧ t ∉ n.pool.future ∧ t ∈ pool.ready)
  { n with pool := pool,
           notes := if mode = .instant ∧ ready = true ∧ n.notes < places then n.notes + 1 else n.notes }

/-- `seal_block`: an error if there is nothing to put in a block and no empty one is wanted. -/
def sealBlock (propose : List Tx → Proposal) (createEmpty finalize : Bool) (n : Node) : Node × Answer :=
  if n.pool.ready.length = 0 ∧ createEmpty = false then (n, .emptyPool)
  else
    let p := propose n.pool.ready
    let pool := n.pool.leave (fun t => !p.included.contains t && !p.invalid.contains t)
    if p.included.length = 0 ∧ createEmpty = false then ({ n with pool := pool }, .emptyPool)
    else
      ({ n with pool := pool, blocks := n.blocks ++ [p.included],
                finalized := if finalize then n.blocks.length + 1 else n.finalized }, .created n.blocks.length)

/-- The branch of `run_seal_command` for `SealNewBlock`, block_sealing.rs 249-269. The sender is dropped if no block is
attempted. -/
def sealNew (propose : List Tx → Proposal) (createEmpty finalize : Bool) (n : Node) : Node × Answer :=
  if createEmpty = true ∨ 0 < n.pool.ready.length then sealBlock propose createEmpty finalize n else (n, .dropped)

/-- What happens. `noted`: the loop takes a notification of the pool; `tick`: the timer; `command`: `engine_createBlock`;
`finalize`: `engine_finalizeBlock` of a block of the chain. -/
inductive Event where
  | submit (t : Tx)
  | noted
  | tick
  | command (createEmpty finalize : Bool)
  | finalize (block : Nat)

/-- The commands of the streams, block_sealing.rs 119-150, and the loop 247-282. Finalizing a block finalizes those before
it. -/
def step (mode : Mode) (propose : List Tx → Proposal) (n : Node) : Event → Node
  | .submit t => submit mode n t
  | .noted =>
    match mode, n.notes with
    | .instant, k + 1 => (sealNew propose true true { n with notes := k }).1
    | _, _ => n
  | .tick =>
    match mode with
    | .interval createEmpty => (sealNew propose createEmpty true n).1
    | _ => n
  | .command createEmpty finalize =>
    let (n', a) := sealNew propose createEmpty finalize n
    { n' with answers := n'.answers ++ [a] }
  | .finalize block => if block < n.blocks.length then { n with finalized := max n.finalized (block + 1) } else n

/-- A history. -/
def run (mode : Mode) (propose : List Tx → Proposal) (n : Node) (es : List Event) : Node :=
  es.foldl (step mode propose) n

end Verif.Sealing
