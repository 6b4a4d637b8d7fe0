import Mathlib.Data.Fintype.Basic

/-!
Model of `HashTable` and its host view, `include/zensim/container/HashTable.hpp`.

Insertions are tasks whose memory accesses are interleaved.  The key of a slot has `dim` components that are
written one after the other under the lock of the slot (`status`, acquired by compare and swap).  `none` is
undefined behaviour: an access outside the table, or a division by the table size 0.

Simplifications: `value_t` is unbounded (the largest size for which line 383 does not overflow a signed
32-bit integer is `2^30`, `start_no_overflow`); the index -1 is `none`; accesses are sequentially consistent
(the keys are only accessed under the lock during insertion); `do_hash` is an arbitrary function; the
message of line 394 is left out.
-/
namespace Verif.HashTable

abbrev Key (dim : Nat) := Fin dim → Int

variable {dim : Nat}

/-- `key_t::constant(numeric_max)`: the largest 32-bit value in every component. -/
def sent : Key dim := fun _ => 2147483647

/-- Where an insertion is. `done none` is the return value -1 or `false`. -/
inductive Pc (dim : Nat) where
  | start
  | lock (h : Nat)
  | read (h : Nat)
  | write (h d : Nat)
  | unlock (h : Nat) (old : Key dim)
  | add (h : Nat)
  | index (h i : Nat)
  | active (i : Nat)
  | done (r : Option Nat)
deriving DecidableEq

structure St (dim : Nat) where
  lock : Nat → Bool
  keys : Nat → Key dim
  idx : Nat → Option Nat
  cnt : Nat
  active : Nat → Key dim
  pc : Nat → Pc dim

def upd {α : Type} (f : Nat → α) (i : Nat) (x : α) : Nat → α := fun j => if j = i then x else f j

def St.goto (s : St dim) (t : Nat) (p : Pc dim) : St dim := { s with pc := upd s.pc t p }

/-- `(do_hash(key) % _tableSize + _tableSize) % _tableSize`; lines 383, 430, 449, 462. -/
def start (n : Nat) (h : Int) : Nat := ((h.tmod n + n).tmod n).toNat

/-- The key with component `d` overwritten. -/
def setComp (k : Key dim) (d : Nat) (v : Key dim) : Key dim := fun e => if e.val = d then v e else k e

/-- One access of insertion `t`: `insert(key)`, lines 380-398, when `(arg t).2 = none`; `insert(key, id)`,
lines 427-441, otherwise; `atomicKeyCAS`, lines 546-565.  A task that finds the lock taken does not move. -/
def step (arg : Nat → Key dim × Option Nat) (hash : Key dim → Int) (n : Nat) (s : St dim) (t : Nat) : Option (St dim) :=
  let key := (arg t).1
  match s.pc t with
  | .start => if n = 0 then none else some (s.goto t (.lock (start n (hash key))))
  | .lock h =>
    if n ≤ h then none
    else if s.lock h then some s
    else some ({ s with lock := upd s.lock h true }.goto t (.read h))
  | .read h =>
    if n ≤ h then none
    else if s.keys h = sent then some (s.goto t (.write h 0))
    else some (s.goto t (.unlock h (s.keys h)))
  | .write h d =>
    if n ≤ h then none
    else if d < dim then some ({ s with keys := upd s.keys h (setComp (s.keys h) d key) }.goto t (.write h (d + 1)))
    else some (s.goto t (.unlock h sent))
  | .unlock h old =>
    if n ≤ h then none
    else
      some ({ s with lock := upd s.lock h false }.goto t (
        if old = sent then
          match (arg t).2 with
          | none => .add h
          | some i => .index h i
        else if old = key then .done none
        else .lock ((h + 127) % n)))
  | .add h => some ({ s with cnt := s.cnt + 1 }.goto t (.index h s.cnt))
  | .index h i =>
    if n ≤ h then none
    else
      some ({ s with idx := upd s.idx h (some i) }.goto t (
        match (arg t).2 with
        | none => .active i
        | some _ => .done (some i)))
  | .active i => if n ≤ i then none else some ({ s with active := upd s.active i key }.goto t (.done (some i)))
  | .done _ => some s

def run (arg : Nat → Key dim × Option Nat) (hash : Key dim → Int) (n : Nat) : List Nat → St dim → Option (St dim)
  | [], s => some s
  | t :: l, s =>
    match step arg hash n s t with
    | none => none
    | some s => run arg hash n l s

/-- Tasks for a new phase of insertions. -/
def St.begin (s : St dim) : St dim := { s with pc := fun _ => .start }

/-- `reset`, lines 299-303 with `ResetHashTable`, lines 221-237; `clear`, lines 472-483. -/
def St.reset (s : St dim) (n : Nat) (clearCnt : Bool) : St dim :=
  { s with
    lock := fun h => if h < n then false else s.lock h
    keys := fun h => if h < n then sent else s.keys h
    idx := fun h => if h < n then none else s.idx h
    cnt := if clearCnt && decide (0 < n) then 0 else s.cnt }

/-- How a search ends: at a slot or without one, by an access outside the table, or not within the given
number of steps. -/
inductive Out where
  | ret (h : Option Nat)
  | oob
  | more
deriving DecidableEq

/-- Lines 453-454: `hashedentry += 127; if (hashedentry > _tableSize) hashedentry = hashedentry % _tableSize;` -/
def next (n h : Nat) : Nat := if h + 127 > n then (h + 127) % n else h + 127

/-- The loops of `query`, lines 450-455, and `entry`, lines 463-468. -/
def look (n : Nat) (s : St dim) (key : Key dim) : Nat → Nat → Out
  | 0, _ => .more
  | fuel + 1, h =>
    if n ≤ h then .oob
    else if key = s.keys h then .ret (some h)
    else if s.idx h = none then .ret none
    else look n s key fuel (next n h)

/-- `entry`, lines 460-469. -/
def entry (hash : Key dim → Int) (n : Nat) (s : St dim) (key : Key dim) (fuel : Nat) : Out :=
  look n s key fuel (start n (hash key))

/-- `query`, lines 447-456: `none` when it does not return within `fuel` rounds or reads outside the table. -/
def query (hash : Key dim → Int) (n : Nat) (s : St dim) (key : Key dim) (fuel : Nat) : Option (Option Nat) :=
  match entry hash n s key fuel with
  | .ret (some h) => some (s.idx h)
  | .ret none => some none
  | _ => none

/-- `evaluateTableSize`, lines 88-91. -/
def tableSize (next2pow : Nat → Nat) (count : Nat) : Nat := if count = 0 then 0 else next2pow count * 16

/-- `resize`, lines 286-296: the state at the start of the loop that inserts the keys again, when the new
size `m` exceeds the old one.  The keys are inserted by tasks with arguments `again`. -/
def St.grow (s : St dim) (m : Nat) : St dim := (s.reset m false).begin

/-- `ReinsertHashTable`, lines 238-246. -/
def again (s : St dim) : Nat → Key dim × Option Nat := fun i => (s.active i, some i)

/-- `RemoveHashTableEntries`, lines 247-262, for one key. -/
def remove (hash : Key dim → Int) (n : Nat) (s : St dim) (fuel i : Nat) : Option (St dim) :=
  match entry hash n s (s.active i) fuel with
  | .ret (some h) => some { s with keys := upd s.keys h sent, idx := upd s.idx h none, lock := upd s.lock h false }
  | _ => none

/-- `preserve`, lines 265-283, the branch without growth, up to the loop that inserts the keys again; the
keys are removed one after the other. -/
def shrink (hash : Key dim → Int) (n : Nat) (s : St dim) (fuel : Nat) : Nat → Option (St dim)
  | 0 => some s
  | k + 1 =>
    match shrink hash n s fuel k with
    | none => none
    | some s => remove hash n s fuel k

end Verif.HashTable
