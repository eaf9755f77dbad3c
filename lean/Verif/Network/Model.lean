import Verif.Whole.Model
import Verif.Scale
/-!
# Networks

What a transaction is signed for: the extensions `SignedExtra` of `runtime/frequency/src/lib.rs` 289-300 put into the signed
bytes, besides the call, the validity period, number and tip that the signer chose, and what they add themselves: versions of
the runtime (lib.rs 356-379), hash of the genesis block, hash of the block at which the validity period begins. A network is
the chain of `Whole` with the hashes of its blocks and the versions of its runtime.

Not part of the repository and modelled from their published behaviour: `CheckSpecVersion`, `CheckTxVersion`, `CheckGenesis`
and `CheckEra` with the block hashes that `frame_system` keeps, `Era`, and `UncheckedExtrinsic::check` with
`SignedPayload::using_encoded`. `CheckNonZeroSender` and `CheckWeight` sign nothing and are left out. The encoding of calls
is a parameter.
-/

namespace Verif.Network

/-- `Era` of `sp_runtime`: period and phase. -/
inductive Era where
  | immortal
  | mortal (period phase : Nat)
  deriving DecidableEq, Repr

/-- By how much phases are rounded. -/
def quantum (period : Nat) : Nat := max (period / 4096) 1

/-- `checked_next_power_of_two`; periods are far from `u64::MAX`. -/
def nextPower (n : Nat) : Nat := if n ≤ 1 then 1 else 2 ^ ((n - 1).log2 + 1)

/-- `Era::mortal`: what a wallet makes of a wanted period at the current block. -/
def Era.wanted (period now : Nat) : Era :=
  let p := min (max (nextPower period) 4) 65536
  .mortal p (now % p / quantum p * quantum p)

/-- `Era::birth`. -/
def Era.birth (now : Nat) : Era → Nat
  | .immortal => 0
  | .mortal period phase => (max now phase - phase) / period * period + phase

/-- `Encode for Era`. -/
def Era.encode : Era → Bytes
  | .immortal => [0]
  | .mortal period phase => Scale.u16 (min (max (period.log2 - 1) 1) 15 + 16 * (phase / quantum period))

/-- `Decode for Era`. -/
def Era.decode : Bytes → Option (Era × Bytes)
  | [] => none
  | b :: rest =>
    if b.toNat = 0 then some (.immortal, rest)
    else match rest with
      | [] => none
      | b' :: rest' =>
        let encoded := b.toNat + 256 * b'.toNat
        let period := 2 * 2 ^ (encoded % 16)
        let phase := encoded / 16 * quantum period
        if 4 ≤ period ∧ phase < period then some (.mortal period phase, rest') else none

/-- Bytes of a big compact integer: at least four. -/
def bigLen (n : Nat) : Nat := max 4 (n.log2 / 8 + 1)

/-- `Compact<u128>::encode` (parity_scale_codec compact.rs). -/
def compact128 (n : Nat) : Bytes :=
  if n < 2 ^ 6 then Scale.leBytes 1 (n * 4)
  else if n < 2 ^ 14 then Scale.leBytes 2 (n * 4 + 1)
  else if n < 2 ^ 30 then Scale.leBytes 4 (n * 4 + 2)
  else UInt8.ofNat (3 + 4 * (bigLen n - 4)) :: Scale.leBytes (bigLen n) n

/-- Configuration: that of the chain, in which `verify` is `MultiSignature::verify`; `BlockHashCount` (4096 in
`polkadot_runtime_common`, used in lib.rs 444); the encoding of calls; `blake2_256`. -/
structure Config where
  whole : Whole.Config
  kept : Nat
  callBytes : Wrapped.Call → Bytes
  hash : Bytes → Bytes

/-- A network, while a block is made: the hashes of the blocks before it, that of block `i` at position `i`; versions of the
runtime; the state. -/
structure Net where
  hashes : List Bytes
  spec : Nat
  txVersion : Nat
  chain : Wrapped.State

/-- The number of the block that is made. -/
def Net.now (n : Net) : Nat := n.hashes.length

/-- `BlockHash` of `frame_system`: that of the genesis block and the last ones; `finalize` of block `k` removes that of block
`k - kept - 1`. -/
def stored (kept : Nat) (n : Net) (b : Nat) : Option Bytes :=
  if b = 0 ∨ n.now ≤ b + kept + 1 then n.hashes[b]? else none

/-- A transaction as sent: the validity period and the tip, lib.rs 294 and 297, and the signature. -/
structure Sent where
  tx : Wrapped.Signed
  era : Era
  tip : Nat
  sig : Signature

/-- What the signer chose, in the order of `SignedExtra`: call, period, number (`CheckNonce`, check_nonce.rs 45) and tip
(`ChargeFrqTransactionPayment`, pallets/frequency-tx-payment/src/lib.rs 343). -/
def Sent.chosen (cfg : Config) (s : Sent) : Bytes :=
  cfg.callBytes s.tx.call ++ (s.era.encode ++ (Scale.compact s.tx.nonce ++ compact128 s.tip))

/-- `additional_signed` of the extensions; `none` if the block where the period begins is not known, or not any more. -/
def additional (cfg : Config) (n : Net) (e : Era) : Option Bytes := do
  let genesis ← stored cfg.kept n 0
  let birth ← stored cfg.kept n (e.birth n.now)
  some (Scale.u32 n.spec ++ (Scale.u32 n.txVersion ++ (genesis ++ birth)))

/-- `using_encoded` of `SignedPayload`: the hash of what is too long. -/
def digest (cfg : Config) (b : Bytes) : Bytes := if 256 < b.length then cfg.hash b else b

/-- `UncheckedExtrinsic::check`: whether the network takes the signature. -/
def accepts (cfg : Config) (n : Net) (s : Sent) : Bool :=
  match additional cfg n s.era with
  | none => false
  | some a => cfg.whole.verify s.sig s.tx.who (digest cfg (s.chosen cfg ++ a))

/-- What happens: a block ends and the next one begins, the relay chain goes on, a transaction, a transaction of the passkey
pallet, decisions of council and root, a runtime upgrade. -/
inductive Event where
  | block (hash : Bytes)
  | tick (k : Nat)
  | sent (s : Sent)
  | passkey (env : TimeRelease.Env) (fee : Balance) (p : Whole.Payload)
  | council (c : Chain.Call)
  | root (env : TimeRelease.Env) (c : TimeRelease.Call)
  | upgrade (spec txVersion : Nat) (known : List (SchemaId × Bytes))

/-- On the chain. -/
def Net.onChain (cfg : Config) (n : Net) (e : Whole.Event) : Net := { n with chain := Whole.apply cfg.whole n.chain e }

/-- Its effect. A transaction with a wrong signature does not get into a block. -/
def apply (cfg : Config) (n : Net) : Event → Net
  | .block hash => { n with hashes := n.hashes ++ [hash] }.onChain cfg (.signed .newBlock)
  | .tick k => n.onChain cfg (.signed (.tick k))
  | .sent s => if accepts cfg n s then n.onChain cfg (.signed (.submit s.tx)) else n
  | .passkey env fee p => n.onChain cfg (.passkey env fee p)
  | .council c => n.onChain cfg (.council c)
  | .root env c => n.onChain cfg (.root env c)
  | .upgrade spec txVersion known => { n with spec := spec, txVersion := txVersion }.onChain cfg (.upgrade known)

/-- A history. -/
def run (cfg : Config) (n : Net) (h : List Event) : Net := h.foldl (apply cfg) n

/-- A new network: block 1 is made on the genesis block. -/
def start (genesis : Bytes) (spec txVersion maxBytes : Nat) (ledger : TimeRelease.State) : Net :=
  ⟨[genesis], spec, txVersion, Wrapped.genesis maxBytes ledger⟩

end Verif.Network
