/-!
# Which network a node runs

The node is built for some of four kinds of networks (features of `node/cli/Cargo.toml` 88-98) and is told by its argument
`--chain` which network to run: `load_spec`, `node/cli/src/command.rs` 68-180, and for the relay chain
`RelayChainCli::load_spec` 256-268 with `RelayChainCli::new`, `node/cli/src/cli.rs` 124-137.

A specification is modelled as its id, relay chain and parachain id, and the rest of its contents as a number. Files are a
map from paths to what they contain; `none` is a path without a proper specification. Outside the repository, modelled from
published behaviour: `ChainSpec::builder` gives the id `dev` if no id is set, `--dev` alone stands for `--chain dev`
(`SharedParams::chain_id`), and the database is in `chains/<id>` below the base path.
-/

namespace Verif.Specs

/-- The features of a build; usually just one. -/
structure Build where
  main : Bool
  noRelay : Bool
  locals : Bool
  testnet : Bool
  deriving DecidableEq, Repr

/-- The networks that the node knows by name. -/
inductive Network where
  | mainnet
  | bench
  | dev
  | rococoLocal
  | paseoLocal
  | paseo
  | rococo
  deriving DecidableEq, Repr

/-- A specification. -/
structure Spec where
  id : String
  relay : String
  para : Nat
  rest : Nat
  deriving DecidableEq, Repr

/-- What loading ends with. -/
inductive Outcome where
  | ok (s : Spec)
  | error
  | panic
  deriving DecidableEq, Repr

/-- The specifications of the networks: resources/frequency.raw.json 3, 25-26; chain_spec/frequency.rs 120-129 (no id);
frequency_dev.rs 18-31; frequency_rococo.rs 34-47 and frequency_paseo.rs 88-101 (no id);
resources/frequency-paseo.raw.json 3, 20-21; resources/frequency-rococo.raw.json 3, 20-21. -/
def spec (rest : Network → Nat) : Network → Spec
  | .mainnet => ⟨"frequency", "polkadot", 2091, rest .mainnet⟩
  | .bench => ⟨"dev", "polkadot", 2091, rest .bench⟩
  | .dev => ⟨"dev", "dev", 1000, rest .dev⟩
  | .rococoLocal => ⟨"dev", "rococo-local", 2000, rest .rococoLocal⟩
  | .paseoLocal => ⟨"dev", "paseo-local", 2000, rest .paseoLocal⟩
  | .paseo => ⟨"frequency-paseo", "paseo", 4000, rest .paseo⟩
  | .rococo => ⟨"frequency-rococo", "rococo", 4044, rest .rococo⟩

/-- The arms of `load_spec` with names, command.rs 69-88. -/
def named (b : Build) (arg : String) : Option Network :=
  if b.main = true ∧ arg = "frequency-bench" then some .bench
  else if b.main = true ∧ arg = "frequency" then some .mainnet
  else if b.noRelay = true ∧ (arg = "dev" ∨ arg = "frequency-no-relay") then some .dev
  else if b.locals = true ∧ arg = "frequency-rococo-local" then some .rococoLocal
  else if b.locals = true ∧ arg = "frequency-paseo-local" then some .paseoLocal
  else if b.testnet = true ∧ (arg = "frequency-testnet" ∨ arg = "frequency-paseo" ∨ arg = "paseo" ∨ arg = "testnet") then
    some .paseo
  else if b.testnet = true ∧ (arg = "frequency-rococo" ∨ arg = "rococo") then some .rococo
  else none

/-- Without an argument, command.rs 90-126. -/
def byDefault (b : Build) : Option Network :=
  if b.main then some .mainnet
  else if b.noRelay then some .dev
  else if b.locals then some .paseoLocal
  else if b.testnet then some .paseo
  else none

/-- A specification from a file, command.rs 127-178, with `identify` 32-46. -/
def fromFile (b : Build) (s : Spec) : Outcome :=
  if s.id = "frequency" then (if b.main then .ok s else .error)
  else if s.id = "frequency-rococo" then (if b.testnet then .ok s else .error)
  else if s.id = "frequency-paseo" then (if b.testnet then .ok s else .error)
  else if s.id = "frequency-local" then (if b.locals then .ok s else .error)
  else if s.id = "dev" then (if b.noRelay then .ok s else .error)
  else .panic

/-- `load_spec`. -/
def loadSpec (b : Build) (rest : Network → Nat) (files : String → Option Spec) (arg : String) : Outcome :=
  match named b arg with
  | some n => .ok (spec rest n)
  | none =>
    if arg = "" then
      match byDefault b with
      | some n => .ok (spec rest n)
      | none => .error
    else match files arg with
      | none => .error
      | some s => fromFile b s

/-- `SharedParams::chain_id`. -/
def argument (chain : Option String) (dev : Bool) : String := chain.getD (if dev then "dev" else "")

/-- The directory of the database, below the base path. -/
def directory (s : Spec) : String := "chains/" ++ s.id

/-- `RelayChainCli::chain_id`, command.rs 497-501: the relay chain of the specification, if no other is given. -/
def relayArg (given : String) (s : Spec) : String := if given = "" then s.relay else given

/-- Specifications of relay chains. -/
inductive Relay where
  | paseoLocal
  | paseo
  | other (name : String)
  deriving DecidableEq, Repr

/-- `load_spec` for the relay chain: two are built in, for others polkadot is asked. -/
def loadRelay (b : Build) (polkadot : String → Bool) (arg : String) : Option Relay :=
  if b.locals = true ∧ arg = "paseo-local" then some .paseoLocal
  else if b.testnet = true ∧ arg = "paseo" then some .paseo
  else if polkadot arg then some (.other arg) else none

end Verif.Specs
