import Verif.Weights.Model
import Verif.Offchain.Props
/-!
# A node that follows the whole chain and keeps the index of keys

The chain of `Weights`, with its wrapped calls, passkey transactions, governance and the limit on the weight of blocks,
and the off-chain database of `Offchain` on a node that imports this chain without forks.
-/

namespace Verif.KeyIndex

open Verif.Offchain (Sys Db emitted blockWrites initialIndex)

/-- The msa pallet of a chain. -/
def msa (s : Weights.State) : Msa.State := s.chain.world.chain.msa

/-- The chain, and the node's database with the bookkeeping of `Offchain`. -/
structure Node where
  chain : Weights.State
  sys : Sys

/-- Genesis. -/
def Node.init (maxBytes : Nat) (ledger : TimeRelease.State) (clears : Bool) : Node :=
  ⟨⟨Wrapped.genesis maxBytes ledger, 0⟩, Sys.init clears⟩

/-- Something happens on the chain. Key events of the open block are indexed (pallets/msa/src/offchain_storage.rs 85-105);
what a failed call has written to the off-chain index is rolled back with its other changes. A new block resets the
counter (pallets/msa/src/lib.rs 400-404). -/
def Node.event (P : Weights.Prices) (cfg : Whole.Config) (n : Node) (e : Whole.Event) : Node :=
  let c := Weights.apply P cfg n.chain e
  match e with
  | .signed .newBlock => ⟨c, { n.sys.next with chain := msa c }⟩
  | _ => ⟨c, n.sys.becomes (msa c)⟩

/-- What a node can come to. `G` restricts what happens on the chain. The other steps are those of `Offchain.SysStep`. -/
inductive Reach (P : Weights.Prices) (cfg : Whole.Config) (G : Weights.State → Whole.Event → Prop) : Node → Prop
  | init (maxBytes : Nat) (ledger : TimeRelease.State) (clears : Bool) : Reach P cfg G (.init maxBytes ledger clears)
  | event {n : Node} (e : Whole.Event) : Reach P cfg G n → G n.chain e → Reach P cfg G (n.event P cfg e)
  /-- the initial indexing, completed: the worker of closed block `b` iterates the keys of the state at the end of that
  block, block `f` being finalized -/
  | initial {n : Node} (accounts : List (AccountId × MsaId)) (f b : Nat) (hf : 1 ≤ f) (hfb : f ≤ b) (hb : b < n.sys.now)
      (hacc : ∀ k m, (k, m) ∈ accounts ↔ n.sys.hist b k = some m)
      (hi : n.sys.db.indexed = false) (hl : n.sys.db.last = none) (hk : n.sys.db.keys = ∅) : Reach P cfg G n →
      Reach P cfg G { n with sys :=
        { n.sys with db := initialIndex accounts f none n.sys.db, since := b, clean := true } }
  /-- the worker handles the next closed block and stops after `j` writes -/
  | work {n : Node} (lp j : Nat) (hi : n.sys.db.indexed = true) (hl : n.sys.db.last = some lp) (hn : lp + 1 < n.sys.now) :
      Reach P cfg G n →
      Reach P cfg G { n with sys :=
        { n.sys with
          db := n.sys.db.writes ((blockWrites n.sys.db (lp + 1)).take j)
          clean := decide ((n.sys.db.writes ((blockWrites n.sys.db (lp + 1)).take j)).last = some (lp + 1)) } }

end Verif.KeyIndex
