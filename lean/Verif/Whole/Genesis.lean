import Verif.TimeRelease.Model
/-!
# The tokens of the genesis

The chain specifications give balances and schedules, `node/service/src/chain_spec/frequency.rs` 404-455; the pallets
build their state from them in the order of the runtime, `runtime/frequency/src/lib.rs` 1165-1223: first the balances
pallet and the treasury pallet, which are not in the repository, then `pallets/time-release/src/lib.rs` 186-228.
-/

namespace Verif.Whole
open TimeRelease (Sched Account)

/-- The balances pallet before the items. -/
def noTokens (block : BlockNumber) : TimeRelease.State := ⟨block, SMap.empty, SMap.empty, 0⟩

/-- The accounts of the balances pallet. -/
def endow (s : TimeRelease.State) (l : List (AccountId × Balance)) : TimeRelease.State :=
  l.foldl (fun s p => TimeRelease.setAcct s p.1 ⟨p.2, 0, 0, 0⟩) s

/-- `build` of the balances pallet: every account has the existential deposit, none is named twice, and the supply is a
balance. `none`: the chain does not start. -/
def buildBalances (cfg : TimeRelease.Config) (block : BlockNumber) (l : List (AccountId × Balance)) :
    Option TimeRelease.State :=
  if (∀ p ∈ l, cfg.ed ≤ p.2) ∧ (l.map Prod.fst).Nodup ∧ (l.map Prod.snd).sum < 2 ^ 128 then some (endow (noTokens block) l)
  else none

/-- `build` of the treasury pallet: its account gets the existential deposit if it has less. -/
def buildTreasury (cfg : TimeRelease.Config) (treasury : AccountId) (s : TimeRelease.State) : TimeRelease.State :=
  if TimeRelease.balance s treasury < cfg.ed then
    TimeRelease.setAcct s treasury { TimeRelease.acct s treasury with free := cfg.ed }
  else s

/-- The three pallets; the freezes of the genesis are the first of their accounts and can be set. -/
def build (cfg : TimeRelease.Config) (treasury : AccountId) (block : BlockNumber) (l : List (AccountId × Balance))
    (items : List (AccountId × Sched)) : Option TimeRelease.State :=
  (buildBalances cfg block l).bind
    (fun s => TimeRelease.genesis cfg ⟨true, true⟩ (buildTreasury cfg treasury s) items)

end Verif.Whole
