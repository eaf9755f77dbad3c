import Verif.Stateful.Props
/-!
# Events of the stateful storage pallet

`pallets/stateful-storage/src/lib.rs`, `enum Event` (174-222) and the `deposit_event` calls of `update_itemized`,
`update_paginated` and `delete_paginated` (805-937).
-/

namespace Verif.Stateful

/-- `Event`, lib.rs 174-222. -/
inductive Event
  | itemizedUpdated (m : MsaId) (s : SchemaId) (prev curr : Nat)
  | itemizedDeleted (m : MsaId) (s : SchemaId) (prev : Nat)
  | paginatedUpdated (m : MsaId) (s : SchemaId) (pageId prev curr : Nat)
  | paginatedDeleted (m : MsaId) (s : SchemaId) (pageId prev : Nat)
  deriving DecidableEq, Repr

/-- Events of `update_itemized`, lib.rs 840-863: the page found gives the previous hash, the page left the current
one. Nothing where the function returns an error. -/
def itemizedEvents (cfg : Config) (st : Store) (m : MsaId) (s : SchemaId) (actions : List ItemAction) : List Event :=
  match getItemizedPage cfg st m s with
  | .error _ => []
  | .ok old =>
    let existing := old.getD .default
    match applyItemActions cfg.maxItemizedPage existing actions with
    | .error _ => []
    | .ok p =>
      let p : Page := ⟨(existing.nonce + 1) % 65536, p.data⟩
      if p.isEmpty then [.itemizedDeleted m s (existing.getHash cfg.hash)]
      else [.itemizedUpdated m s (existing.getHash cfg.hash) (p.getHash cfg.hash)]

/-- Events of `update_paginated`, lib.rs 897-903. -/
def paginatedEvents (cfg : Config) (st : Store) (m : MsaId) (s : SchemaId) (pageId : Nat) (payload : Bytes) :
    List Event :=
  match getPaginatedPage cfg st m s pageId with
  | .error _ => []
  | .ok old =>
    let existing := old.getD .default
    let new : Page := ⟨(existing.nonce + 1) % 65536, payload⟩
    [.paginatedUpdated m s pageId (existing.getHash cfg.hash) (new.getHash cfg.hash)]

/-- Events of `delete_paginated`, lib.rs 919-935: none when there is no page. -/
def deleteEvents (cfg : Config) (st : Store) (m : MsaId) (s : SchemaId) (pageId : Nat) : List Event :=
  match getPaginatedPage cfg st m s pageId with
  | .ok (some existing) => [.paginatedDeleted m s pageId (existing.getHash cfg.hash)]
  | _ => []

/-- Events of the part of a call that writes. -/
def Update.events (cfg : Config) (st : Store) (m : MsaId) (s : SchemaId) : Update → List Event
  | .items _ a => itemizedEvents cfg st m s a
  | .upsert p _ d => paginatedEvents cfg st m s p d
  | .delete p _ => deleteEvents cfg st m s p

/-- Events a call leaves in its block: those of a call that fails are rolled back with it. The account whose storage
is written is the one named, or the one of the signer. -/
def eventsOf (cfg : Config) (st : Store) (x : Step) : List Event :=
  match dispatch cfg x.env st x.who x.call, x.call.owner x.env with
  | .ok _, some m => x.call.update.events cfg st m x.call.schema
  | _, _ => []

/-- Events of a history, in order. -/
def eventsFrom (cfg : Config) : Store → List Step → List Event
  | _, [] => []
  | st, x :: rest => eventsOf cfg st x ++ eventsFrom cfg (apply cfg st x) rest

end Verif.Stateful
