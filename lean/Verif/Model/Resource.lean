/-!
Model of `Resource::record`, `erase`, `deallocate` (`include/zensim/resource/Resource.cpp` lines 71-86) over
`concurrent_map` (`include/zensim/execution/Concurrency.h` lines 94-137).

Calls of `deallocate` run in tasks that are interleaved. Each map operation holds the lock of the map and is
atomic; the lock `g_resource_rw_mutex` is held from line 79 to the end of its scope.  The reference returned
by `get` is used after the lock of the map is released: a read through it when the record has been erased,
and a second release of the same memory, are undefined behaviour (`none`).  Addresses are natural numbers;
they are not reused while the calls run.  `find` and `get` of the same task are separate operations.
-/
namespace Verif.Resource

/-- `AllocationRecord`: tag, size, alignment. -/
structure Rec where
  tag : Nat
  size : Nat
  align : Nat
deriving DecidableEq

/-- Where a call is. `bad` is a call that threw. -/
inductive Pc where
  | find
  | lock
  | get
  | free
  | unlock
  | erase
  | done
  | bad
deriving DecidableEq

/-- The records, the task that holds `g_resource_rw_mutex`, the released blocks (latest first), the tasks. -/
structure St where
  map : Nat → Option Rec
  owner : Option Nat
  freed : List (Nat × Rec)
  pc : Nat → Pc

def upd {α : Type} (f : Nat → α) (i : Nat) (x : α) : Nat → α := fun j => if j = i then x else f j

def St.goto (s : St) (t : Nat) (p : Pc) : St := { s with pc := upd s.pc t p }

/-- `record`, lines 71-74. -/
def St.record (s : St) (p : Nat) (r : Rec) : St := { s with map := upd s.map p (some r) }

/-- One operation of task `t`, which executes `deallocate(arg t)`; lines 77-86. A task that waits for the lock
does not move. -/
def step (arg : Nat → Nat) (s : St) (t : Nat) : Option St :=
  match s.pc t with
  | .find => some (s.goto t (if (s.map (arg t)).isSome then .lock else .bad))
  | .lock => if s.owner.isNone then some ({ s with owner := some t }.goto t .get) else some s
  | .get =>
    -- `at` throws; the lock is released
    if (s.map (arg t)).isSome then some (s.goto t .free) else some ({ s with owner := none }.goto t .bad)
  | .free =>
    match s.map (arg t) with
    | none => none
    | some r =>
      if s.freed.any (·.1 == arg t) then none
      else some ({ s with freed := (arg t, r) :: s.freed }.goto t .unlock)
  | .unlock => some ({ s with owner := none }.goto t .erase)
  | .erase => some ({ s with map := upd s.map (arg t) none }.goto t .done)
  | .done => some s
  | .bad => some s

def run (arg : Nat → Nat) : List Nat → St → Option St
  | [], s => some s
  | t :: l, s =>
    match step arg s t with
    | none => none
    | some s => run arg l s

/-- All tasks at the start. -/
def begin (map : Nat → Option Rec) : St := { map, owner := none, freed := [], pc := fun _ => .find }

end Verif.Resource
