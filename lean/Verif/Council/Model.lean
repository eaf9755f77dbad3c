import Verif.Chain.Model
/-!
# The council

How requests come before the council of mainnet and what becomes of them: `CouncilProposalProvider` and the
configuration of `pallet_collective` in runtime/frequency/src/lib.rs 101-126, 139-163, 494-500, 530-537, 667-679, the
calls `propose_*` of the msa and schemas pallets, and `pallet_collective` of the SDK (release-polkadot-v1.6.0, not part of
the repository, modelled from its published source), on top of the pallets together (Chain/Model.lean).

Simplifications: motions other than single calls of the six pallets do nothing here (so there are no batches and no
scheduled calls, which keep the origin they were approved with); whoever closes a motion gives sufficient bounds on its
weight and length; members are not sorted; a vote that is taken back leaves the others in order. The technical committee
and referenda, which may act as root, are steps of root here.
-/

namespace Verif.Council

/-- What a motion asks for: a call of the six pallets, or anything else. -/
inductive Request where
  | call (c : Chain.Call)
  | other (n : Nat)

/-- Configuration: that of the pallets; the hash of calls; which calls are light enough to be proposed
(`MaxProposalWeight`); `CouncilMaxProposals` and `CouncilMotionDuration`, runtime/common/src/constants.rs 157, 161. -/
structure Config where
  chain : Chain.Config
  hash : Request → Nat
  light : Request → Bool
  maxProposals : Nat
  duration : Nat

/-- An entry of `ProposalOf` and `Voting`. -/
structure Motion where
  index : Nat
  request : Request
  threshold : Nat
  ayes : List AccountId
  nays : List AccountId
  until_ : BlockNumber

/-- The pallets, and `Members`, `Prime`, `Proposals` with `ProposalOf` and `Voting`, and `ProposalCount`. -/
structure State where
  chain : Chain.State
  members : List AccountId
  prime : Option AccountId
  motions : List Motion
  count : Nat

/-- Genesis with a council, `initialize_members`. -/
def State.init (maxBytes : Nat) (members : List AccountId) : State := ⟨.init maxBytes, members, none, [], 0⟩

/-- The motion with the hash. -/
def find (cfg : Config) (s : State) (h : Nat) : Option Motion := s.motions.find? (fun v => cfg.hash v.request == h)

/-- `remove_proposal`. -/
def remove (cfg : Config) (s : State) (h : Nat) : State :=
  { s with motions := s.motions.filter (fun v => cfg.hash v.request != h) }

/-- What the origin `Members(n, m)` counts for: more than half of the council (`EnsureProportionMoreThan<1, 2>`, lib.rs
536) or at least one member (`EnsureMembers<1>`, lib.rs 499). -/
def membersOrigin (n m : Nat) : Option Chain.Origin :=
  if m < n * 2 then some .council else if 1 ≤ n then some .member else none

/-- A request is carried out as `n` of `m` members; if it fails, nothing changes. -/
def carryOut (cfg : Config) (bal : AccountId → Balance) (s : State) (n m : Nat) : Request → State
  | .call c => match (membersOrigin n m).bind (fun o => Chain.dispatch cfg.chain bal s.chain o c) with
    | some t => { s with chain := t }
    | none => s
  | .other _ => s

/-- `do_propose_proposed`. -/
def proposeProposed (cfg : Config) (s : State) (threshold : Nat) (r : Request) : Option State :=
  if cfg.light r = true ∧ (find cfg s (cfg.hash r)).isNone ∧ s.motions.length < cfg.maxProposals then
    some { s with
      motions := s.motions ++ [⟨s.count, r, threshold, [], [], s.chain.block + cfg.duration⟩]
      count := s.count + 1 }
  else none

/-- `CouncilProposalProvider::propose_with_simple_majority`, lib.rs 113-120. -/
def proposeMajority (cfg : Config) (s : State) (r : Request) : Option State :=
  proposeProposed cfg s (s.members.length / 2 + 1) r

/-- `propose` of the council: a member; with a threshold below two the request is carried out at once. -/
def propose (cfg : Config) (bal : AccountId → Balance) (s : State) (who : AccountId) (threshold : Nat) (r : Request) :
    Option State :=
  if who ∈ s.members then
    if threshold < 2 then
      if cfg.light r = true ∧ (find cfg s (cfg.hash r)).isNone then some (carryOut cfg bal s 1 s.members.length r)
      else none
    else proposeProposed cfg s threshold r
  else none

/-- `do_vote` on a motion: to repeat a vote is an error, a different one replaces it. -/
def Motion.vote (v : Motion) (who : AccountId) (approve : Bool) : Option Motion :=
  if approve then
    if who ∈ v.ayes then none else some { v with ayes := v.ayes ++ [who], nays := v.nays.erase who }
  else
    if who ∈ v.nays then none else some { v with nays := v.nays ++ [who], ayes := v.ayes.erase who }

/-- `vote`. -/
def vote (cfg : Config) (s : State) (who : AccountId) (h index : Nat) (approve : Bool) : Option State :=
  if who ∈ s.members then do
    let v ← find cfg s h
    if v.index = index then do
      let w ← v.vote who approve
      some { s with motions := s.motions.map (fun v => if cfg.hash v.request = h then w else v) }
    else none
  else none

/-- `do_approve_proposal`: carried out and removed. -/
def approve (cfg : Config) (bal : AccountId → Balance) (s : State) (v : Motion) (yes : Nat) : State :=
  remove cfg (carryOut cfg bal s yes s.members.length v.request) (cfg.hash v.request)

/-- `do_close`: at once if enough votes are cast either way, else after the end, when the members who have not voted
count as the prime member voted (`PrimeDefaultVote`, lib.rs 675), as against if there is none. -/
def close (cfg : Config) (bal : AccountId → Balance) (s : State) (h index : Nat) : Option State := do
  let v ← find cfg s h
  if v.index = index then
    let yes := v.ayes.length
    let no := v.nays.length
    let seats := s.members.length
    if v.threshold ≤ yes then some (approve cfg bal s v yes)
    else if seats - no < v.threshold then some (remove cfg s h)
    else if v.until_ ≤ s.chain.block then
      let yes' := if s.prime.any (fun p => decide (p ∈ v.ayes)) then yes + (seats - (yes + no)) else yes
      if v.threshold ≤ yes' then some (approve cfg bal s v yes') else some (remove cfg s h)
    else none
  else none

/-- `set_members`: the votes of those who leave are removed from all motions. -/
def setMembers (s : State) (new : List AccountId) (prime : Option AccountId) : State :=
  let out := s.members.filter (fun a => decide (a ∉ new))
  { s with
    members := new
    prime := prime
    motions := s.motions.map (fun v => { v with
      ayes := v.ayes.filter (fun a => decide (a ∉ out)), nays := v.nays.filter (fun a => decide (a ∉ out)) }) }

/-- Calls. -/
inductive Call where
  /-- a call of the six pallets -/
  | chain (c : Chain.Call)
  | proposeSchema (model : Bytes) (mt : Schemas.ModelType) (loc : Schemas.Location) (settings : List Schemas.Setting)
  | proposeSchemaV2 (model : Bytes) (mt : Schemas.ModelType) (loc : Schemas.Location) (settings : List Schemas.Setting)
      (name : Option Bytes)
  | proposeName (id : SchemaId) (name : Bytes)
  | propose (threshold : Nat) (r : Request)
  | vote (h index : Nat) (approve : Bool)
  | close (h index : Nat)
  | setMembers (new : List AccountId) (prime : Option AccountId)
  | disapprove (h : Nat)

/-- Arguments within their bounds, so that the call decodes. -/
def Decodable (cfg : Schemas.Config) (model : Bytes) (settings : List Schemas.Setting) (name : Option Bytes) : Prop :=
  model.length ≤ cfg.modelLimit ∧ settings.length ≤ cfg.maxSettings ∧ ∀ b ∈ name, b.length ≤ 32

instance (cfg : Schemas.Config) (model : Bytes) (settings : List Schemas.Setting) (name : Option Bytes) :
    Decidable (Decodable cfg model settings name) := by unfold Decodable; infer_instance

/-- `BaseCallFilter` of mainnet for signed accounts, lib.rs 139-163 with the feature `frequency`. -/
def permitted : Chain.Call → Bool
  | .msa (.createProvider _) => false
  | .schemas (.createSchema _ _ _) | .schemas (.createSchemaV2 _ _ _ _) | .schemas (.createSchemaV3 _ _ _ _ _) => false
  | _ => true

/-- A call of a signed account: `propose_to_be_provider` (pallets/msa/src/lib.rs 862-882, threshold one),
`propose_to_create_schema`, `propose_to_create_schema_v2`, `propose_to_create_schema_name` (pallets/schemas/src/lib.rs
338-359, 440-463, 593-607), those of the council, and the others. -/
def signed (cfg : Config) (bal : AccountId → Balance) (s : State) (who : AccountId) : Call → Option State
  | .chain c =>
    if permitted c then
      match c with
      | .msa (.proposeToBeProvider name) =>
        if name.length ≤ cfg.chain.msa.maxNameSize ∧ (Chain.msaOf s.chain who).isSome then
          proposeProposed cfg s 1 (.call (.msa (.createProviderViaGovernance who name)))
        else none
      | c => (Chain.dispatch cfg.chain bal s.chain (.signed who) c).map (fun t => { s with chain := t })
    else none
  | .proposeSchema model mt loc settings =>
    if Decodable cfg.chain.schemas model settings none then
      proposeMajority cfg s (.call (.schemas (.createViaGovernance who model mt loc settings)))
    else none
  | .proposeSchemaV2 model mt loc settings name =>
    if Decodable cfg.chain.schemas model settings name then
      proposeMajority cfg s (.call (.schemas (.createViaGovernanceV2 who model mt loc settings name)))
    else none
  | .proposeName id name =>
    if name.length ≤ 32 ∧ (Schemas.parseAndVerify s.chain.schemas id name).isOk then
      proposeMajority cfg s (.call (.schemas (.createName id name)))
    else none
  | .propose threshold r => propose cfg bal s who threshold r
  | .vote h i b => vote cfg s who h i b
  | .close h i => close cfg bal s h i
  | .setMembers _ _ => none
  | .disapprove _ => none

/-- A call of root, which no filter stops. -/
def root (cfg : Config) (bal : AccountId → Balance) (s : State) : Call → Option State
  | .chain c => (Chain.dispatch cfg.chain bal s.chain .root c).map (fun t => { s with chain := t })
  | .setMembers new prime => some (setMembers s new prime)
  | .disapprove h => some (remove cfg s h)
  | _ => none

/-- What happens. -/
inductive Step where
  | newBlock
  /-- a signed account calls, however the call was wrapped -/
  | signed (bal : AccountId → Balance) (who : AccountId) (c : Call)
  /-- root calls -/
  | root (bal : AccountId → Balance) (c : Call)
  | charge (key : AccountId) (fee : Balance)
  | upgrade (known : List (SchemaId × Bytes))

/-- A step. What fails changes nothing. -/
def apply (cfg : Config) (s : State) : Step → State
  | .newBlock => { s with chain := Chain.newBlock cfg.chain s.chain }
  | .signed bal who c => (signed cfg bal s who c).getD s
  | .root bal c => (root cfg bal s c).getD s
  | .charge key fee => { s with chain := (Chain.charge s.chain key fee).getD s.chain }
  | .upgrade known => { s with chain := Chain.apply cfg.chain s.chain (.upgrade known) }

/-- A history. -/
def run (cfg : Config) (s : State) (h : List Step) : State := h.foldl (apply cfg) s

end Verif.Council
