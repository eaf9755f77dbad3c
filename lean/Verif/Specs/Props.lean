import Verif.Specs.Model
import Mathlib.Tactic.SplitIfs
/-!
# C153: a node runs the network it is asked for
-/

namespace Verif.Specs

/-! ## Specification -/

/-- The names of the networks, as documented. -/
def Network.names : Network → List String
  | .mainnet => ["frequency"]
  | .bench => ["frequency-bench"]
  | .dev => ["dev", "frequency-no-relay"]
  | .rococoLocal => ["frequency-rococo-local"]
  | .paseoLocal => ["frequency-paseo-local"]
  | .paseo => ["frequency-paseo", "paseo", "frequency-testnet", "testnet"]
  | .rococo => ["frequency-rococo", "rococo"]

/-- The build is for this network. -/
def Available (b : Build) : Network → Prop
  | .mainnet | .bench => b.main = true
  | .dev => b.noRelay = true
  | .rococoLocal | .paseoLocal => b.locals = true
  | .paseo | .rococo => b.testnet = true

/-- A path for a file: not empty and not the name of a network. -/
def Path (p : String) : Prop := p ≠ "" ∧ ∀ n : Network, p ∉ n.names

/-- A node runs what it is asked for. -/
structure RunsAsAsked (b : Build) (rest : Network → Nat) : Prop where
  /-- the network of the name -/
  name : ∀ files n a, a ∈ n.names → Available b n → loadSpec b rest files a = .ok (spec rest n)
  /-- and no other one -/
  other : ∀ files n a, a ∈ n.names → ¬ Available b n → files a = none → loadSpec b rest files a = .error
  /-- a specification that was written to a file can be used -/
  reload : ∀ files n p, Path p → Available b n → files p = some (spec rest n) → loadSpec b rest files p = .ok (spec rest n)
  /-- what is in a file is run as it is, or refused -/
  file : ∀ files p s, Path p → files p = some s → loadSpec b rest files p = .ok s ∨ loadSpec b rest files p = .error
  /-- networks do not share a database -/
  apart : ∀ n n', Available b n → Available b n' → directory (spec rest n) = directory (spec rest n') → n = n'

/-- C153 in full. -/
def C153_full : Prop := ∀ b rest, RunsAsAsked b rest

/-! ## Theorems -/

/-- C153, names: a name stands for its network if the build has it, and for nothing else otherwise. -/
theorem C153_name_partial (b : Build) (rest : Network → Nat) (files : String → Option Spec) (n : Network) (a : String)
    (ha : a ∈ n.names) :
    (Available b n → loadSpec b rest files a = .ok (spec rest n)) ∧
    (¬ Available b n → files a = none → loadSpec b rest files a = .error) := by
  obtain ⟨b1, b2, b3, b4⟩ := b
  constructor
  · intro hb
    cases n <;> simp only [Network.names, List.mem_cons, List.not_mem_nil, or_false] at ha <;> simp only [Available] at hb <;>
      (try subst hb) <;> rcases ha with rfl | rfl | rfl | rfl <;> simp [loadSpec, named]
  · intro hb hf
    cases n <;> simp only [Network.names, List.mem_cons, List.not_mem_nil, or_false] at ha <;> simp only [Available] at hb <;>
      rcases ha with rfl | rfl | rfl | rfl <;> simp [loadSpec, named, hb, hf]

theorem named_path {b : Build} {p : String} (h : Path p) : named b p = none := by
  have h1 := h.2
  have m := h1 .mainnet
  have n := h1 .bench
  have o := h1 .dev
  have q := h1 .rococoLocal
  have r := h1 .paseoLocal
  have s := h1 .paseo
  have t := h1 .rococo
  simp only [Network.names, List.mem_cons, List.not_mem_nil, or_false, not_or] at m n o q r s t
  simp [named, m, n, o, q, r, s, t]

theorem load_path {b : Build} {rest : Network → Nat} {files : String → Option Spec} {p : String} {s : Spec} (h : Path p)
    (hf : files p = some s) : loadSpec b rest files p = fromFile b s := by
  unfold loadSpec
  rw [named_path h]
  simp [h.1, hf]

/-- C153, files: what a file contains is run as it is or not at all, if its id is one of five; and it is run just when the
build has what the id says. Missing: other ids, where the node panics (`C153_panics`). -/
theorem C153_file_partial (b : Build) (rest : Network → Nat) (files : String → Option Spec) (p : String) (s : Spec)
    (hp : Path p) (hf : files p = some s) :
    (loadSpec b rest files p = .ok s ↔ (s.id = "frequency" ∧ b.main = true) ∨
      ((s.id = "frequency-rococo" ∨ s.id = "frequency-paseo") ∧ b.testnet = true) ∨
      (s.id = "frequency-local" ∧ b.locals = true) ∨ (s.id = "dev" ∧ b.noRelay = true)) ∧
    (∀ s', loadSpec b rest files p = .ok s' → s' = s) ∧
    (loadSpec b rest files p = .panic ↔
      s.id ∉ ["frequency", "frequency-rococo", "frequency-paseo", "frequency-local", "dev"]) := by
  rw [load_path hp hf]
  obtain ⟨id, relay, para, r⟩ := s
  obtain ⟨b1, b2, b3, b4⟩ := b
  unfold fromFile
  simp only
  split_ifs <;> simp_all

/-- C153, files that the node wrote: just those can be used again whose id is not `dev`, or with a build for development
without relay chain. Missing: the local networks and the one for benchmarks, which have the id `dev` too
(`C153_local_reload`). -/
theorem C153_reload_partial (b : Build) (rest : Network → Nat) (files : String → Option Spec) (n : Network) (p : String)
    (hp : Path p) (hn : Available b n) (hf : files p = some (spec rest n)) :
    loadSpec b rest files p = .ok (spec rest n) ↔ (n ∈ [.mainnet, .paseo, .rococo] ∨ b.noRelay = true) := by
  rw [load_path hp hf]
  obtain ⟨b1, b2, b3, b4⟩ := b
  cases n <;> simp_all [Available, spec, fromFile]

/-- C153, databases: networks with different ids do not share one. Missing: four networks have the id `dev`
(`C153_shared`). -/
theorem C153_apart_partial (rest : Network → Nat) (n n' : Network) (hn : n ∈ [.mainnet, .paseo, .rococo])
    (h : directory (spec rest n) = directory (spec rest n')) : n = n' := by
  cases n <;> cases n' <;> simp_all [directory, spec] <;> exact absurd h (by decide)

/-- C153, without an argument: a network the build is for, the main network if that is possible; the documented one for
builds with one feature; and with `--dev` alone the development network if the build is for it. -/
theorem C153_default (b : Build) (rest : Network → Nat) (files : String → Option Spec) :
    (∀ s, loadSpec b rest files (argument none false) = .ok s → ∃ n, Available b n ∧ s = spec rest n) ∧
    (b.main = true → loadSpec b rest files (argument none false) = .ok (spec rest .mainnet)) ∧
    (loadSpec ⟨false, true, false, false⟩ rest files (argument none false) = .ok (spec rest .dev) ∧
      loadSpec ⟨false, false, true, false⟩ rest files (argument none false) = .ok (spec rest .paseoLocal) ∧
      loadSpec ⟨false, false, false, true⟩ rest files (argument none false) = .ok (spec rest .paseo)) ∧
    (b.noRelay = true → loadSpec b rest files (argument none true) = .ok (spec rest .dev)) := by
  obtain ⟨b1, b2, b3, b4⟩ := b
  refine ⟨?_, ?_, ?_, ?_⟩
  · intro s h
    revert h
    cases b1 <;> cases b2 <;> cases b3 <;> cases b4 <;> simp [argument, loadSpec, named, byDefault] <;> intro h <;> subst h
    all_goals first
      | exact ⟨.mainnet, rfl, rfl⟩
      | exact ⟨.dev, rfl, rfl⟩
      | exact ⟨.paseoLocal, rfl, rfl⟩
      | exact ⟨.paseo, rfl, rfl⟩
  · intro h
    simp only at h
    subst h
    simp [argument, loadSpec, named, byDefault]
  · refine ⟨?_, ?_, ?_⟩ <;> simp [argument, loadSpec, named, byDefault]
  · intro h
    simp only at h
    subst h
    simp [argument, loadSpec, named]

/-- C153, relay chains: unless told otherwise, a node of a network follows the relay chain of the network, whichever other
features the build has, provided that polkadot knows those that are not built in. -/
theorem C153_relay (b : Build) (polkadot : String → Bool) (rest : Network → Nat) (n : Network) (hn : Available b n)
    (hp : polkadot "polkadot" = true ∧ polkadot "rococo" = true ∧ polkadot "rococo-local" = true) (hd : n ≠ .dev) :
    loadRelay b polkadot (relayArg "" (spec rest n)) = some (match n with
      | .paseoLocal => .paseoLocal
      | .paseo => .paseo
      | .rococo => .other "rococo"
      | .rococoLocal => .other "rococo-local"
      | _ => .other "polkadot") := by
  obtain ⟨b1, b2, b3, b4⟩ := b
  obtain ⟨h1, h2, h3⟩ := hp
  cases n <;> simp only [Available] at hn <;> (try exact absurd rfl hd) <;> subst hn <;>
    simp [spec, relayArg, loadRelay, h1, h2, h3]

/-! ## What is wrong -/

/-- A build for local networks. -/
def exLocal : Build := ⟨false, false, true, false⟩

/-- A file with some specification. -/
def exFile (s : Spec) : String → Option Spec := fun p => if p = "spec.json" then some s else none

theorem exPath : Path "spec.json" := ⟨by decide, fun n => by cases n <;> decide⟩

/-- The specification of a local network, written to a file, is refused by the same node. -/
theorem C153_local_reload (rest : Network → Nat) :
    loadSpec exLocal rest (exFile (spec rest .rococoLocal)) "spec.json" = .error := by
  rw [load_path exPath (s := spec rest .rococoLocal) rfl]
  rfl

/-- With a file for a network of another name the node panics. -/
theorem C153_panics (b : Build) (rest : Network → Nat) :
    loadSpec b rest (exFile ⟨"my-network", "rococo-local", 2000, 0⟩) "spec.json" = .panic := by
  rw [load_path exPath (s := ⟨"my-network", "rococo-local", 2000, 0⟩) rfl]
  rfl

/-- The local networks share a database. -/
theorem C153_shared (rest : Network → Nat) :
    directory (spec rest .rococoLocal) = directory (spec rest .paseoLocal) := rfl

/-- C153 in full is false. -/
theorem C153_full_false : ¬ C153_full := by
  intro h
  have := (h exLocal (fun _ => 0)).reload (exFile (spec (fun _ => 0) .rococoLocal)) .rococoLocal "spec.json" exPath rfl rfl
  rw [C153_local_reload] at this
  cases this

/-- The hypotheses of the theorems hold for the test network: it is run by its names, and from a file. -/
example (rest : Network → Nat) : loadSpec ⟨false, false, false, true⟩ rest (fun _ => none) "testnet" = .ok (spec rest .paseo) ∧
    loadSpec ⟨false, false, false, true⟩ rest (exFile (spec rest .paseo)) "spec.json" = .ok (spec rest .paseo) ∧
    loadSpec ⟨false, false, false, true⟩ rest (fun _ => none) "frequency" = .error :=
  ⟨(C153_name_partial _ rest _ .paseo "testnet" (by decide)).1 rfl,
    (C153_reload_partial ⟨false, false, false, true⟩ rest _ .paseo "spec.json" exPath rfl rfl).2 (by decide),
    (C153_name_partial _ rest _ .mainnet "frequency" (by decide)).2 (by simp [Available]) rfl⟩

end Verif.Specs
