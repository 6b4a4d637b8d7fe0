/-!
Model of `bht` (`include/zensim/container/Bht.hpp`): concurrent insertion on the host, query, resize.

Each call of `insert` is a task with its own program counter; any number of threads that perform any
number of calls is a special case.  A step is one access to shared memory.  `atomicLoad` and
`atomicSwitchIfEqual` are one access each: for keys of four and eight bytes they are one machine
operation (`switchWord` below), for others they hold the lock of the slot (`Verif.Model.BhtLock`).  A load
may be stale: a slot changes only once, from the sentinel to a key, so a stale load shows the sentinel.
Access outside an array is undefined behaviour: the outcome `none`.  Counters do not overflow.
-/
namespace Verif.Bht

/-- The parameters of a table: bucket size, number of buckets (`_tableSize / bucket_size`, line 480),
the three hash functions, the sentinel key (lines 124-129), the width of `size_type`. -/
structure Cfg (K : Type) where
  B : Nat
  nb : Nat
  hf : Nat → K → Nat
  hole : K
  width : Nat

variable {K : Type}

/-- `_tableSize`; `evaluateTableSize` (lines 154-158) makes it a multiple of the bucket size. -/
def Cfg.size (c : Cfg K) : Nat := c.nb * c.B

/-- `_tableSize - 20` in unsigned arithmetic; line 644. -/
def Cfg.limit (c : Cfg K) : Nat := (c.size + 2 ^ c.width - 20) % 2 ^ c.width

/-- `threshold`; line 34. -/
def Cfg.threshold (c : Cfg K) : Nat := c.B - 2

/-- `_hfi(key) % _numBuckets * bucket_size`; lines 618, 655, 657. -/
def Cfg.offset (c : Cfg K) (i : Nat) (k : K) : Nat := c.hf i k % c.nb * c.B

/-- The arguments of `insert`; `given` is `insertion_index`, `none` being `sentinel_v`. -/
structure Task (K : Type) where
  key : K
  given : Option Nat
  enqueue : Bool

/-- Where a call stands.  The slot that a successful call won stays recorded for the proofs. -/
inductive Pc where
  /-- line 614 -/
  | start
  /-- line 621: about to load slot `l` of bucket `i` -/
  | scan (i l : Nat)
  /-- line 634: about to claim it -/
  | cas (i l : Nat)
  /-- lines 638-641 -/
  | count (slot : Nat)
  /-- line 642 -/
  | setIdx (slot no : Nat)
  /-- line 643 -/
  | setKey (slot no : Nat)
  /-- line 644 -/
  | finish (slot no : Nat)
  /-- line 631: returned `sentinel_v` -/
  | present
  /-- lines 614, 663: returned `failure_token_v` -/
  | failed
  /-- line 647: returned `failure_token_v`, too close to the capacity -/
  | near (slot no : Nat)
  /-- line 649: returned the index -/
  | ret (slot no : Nat)
  deriving DecidableEq, Repr

/-- The shared memory and the calls; lines 759-764. -/
structure St (K : Type) where
  keys : Nat → K
  indices : Nat → Nat
  active : Nat → K
  cnt : Nat
  success : Bool
  pc : Nat → Pc

/-- Function update. -/
def upd {α : Type} (f : Nat → α) (i : Nat) (x : α) : Nat → α := fun j => if j = i then x else f j

def St.goto (s : St K) (t : Nat) (p : Pc) : St K := { s with pc := upd s.pc t p }

/-- The `else` branch of lines 651-660 and the end of the loop: the next bucket, or failure. -/
def St.next (s : St K) (t i : Nat) : St K :=
  if i + 1 < 3 then s.goto t (.scan (i + 1) 0)
  else { s.goto t .failed with success := false }

/-- One step of the call `t`; `stale` only matters for loads.  Lines 612-664. -/
def step [DecidableEq K] (c : Cfg K) (task : Nat → Task K) (s : St K) (t : Nat) (stale : Bool) : Option (St K) :=
  match s.pc t with
  | .start => some (if c.nb = 0 then s.goto t .failed else s.goto t (.scan 0 0))
  | .scan i l =>
    let a := c.offset i (task t).key + l
    if c.size ≤ a then none
    else
      let cur := if stale then c.hole else s.keys a
      some (
        if cur = (task t).key then s.goto t .present
        else if cur = c.hole then
          if l ≤ c.threshold then s.goto t (.cas i l) else s.next t i
        else if l + 1 = c.B then s.next t i
        else s.goto t (.scan i (l + 1)))
  | .cas i l =>
    let a := c.offset i (task t).key + l
    if c.size ≤ a then none
    else if s.keys a = c.hole then
      some { s with keys := upd s.keys a (task t).key, pc := upd s.pc t (.count a) }
    else some (s.goto t (.scan i l))
  | .count a =>
    match (task t).given with
    | some n => some (s.goto t (.setIdx a n))
    | none => some { s with cnt := s.cnt + 1, pc := upd s.pc t (.setIdx a s.cnt) }
  | .setIdx a n =>
    if c.size ≤ a then none
    else some { s with indices := upd s.indices a n, pc := upd s.pc t (.setKey a n) }
  | .setKey a n =>
    if (task t).enqueue then
      if c.size ≤ n then none
      else some { s with active := upd s.active n (task t).key, pc := upd s.pc t (.finish a n) }
    else some (s.goto t (.finish a n))
  | .finish a n =>
    some (if c.limit ≤ n then { s.goto t (.near a n) with success := false } else s.goto t (.ret a n))
  | .present => some s
  | .failed => some s
  | .near _ _ => some s
  | .ret _ _ => some s

/-- An interleaving: which call steps, and whether its load is stale. -/
def run [DecidableEq K] (c : Cfg K) (task : Nat → Task K) : St K → List (Nat × Bool) → Option (St K)
  | s, [] => some s
  | s, (t, stale) :: rest =>
    match step c task s t stale with
    | none => none
    | some s' => run c task s' rest

/-- The table before the calls: `reset` (lines 108-112, 255-259) has filled it with sentinels; the counter and
the list of keys are as they were. -/
def Cfg.empty (c : Cfg K) (cnt : Nat) (active : Nat → K) (indices : Nat → Nat) : St K :=
  { keys := fun _ => c.hole
    indices := indices
    active := active
    cnt := cnt
    success := true
    pc := fun _ => .start }

/-- `for (loc = 0; loc != bucket_size; ++loc) if (keys[bucketOffset + loc] == key) break`; lines 679-680. -/
def findIn [DecidableEq K] (keys : Nat → K) (k : K) : Nat → Nat → Option Nat
  | 0, _ => none
  | n + 1, a => if keys a = k then some a else findIn keys k n (a + 1)

/-- The slot `query` stops at; lines 668-698. -/
def slotOf [DecidableEq K] (c : Cfg K) (s : St K) (k : K) : Option Nat :=
  if c.nb = 0 then none
  else
    match findIn s.keys k c.B (c.offset 0 k) with
    | some a => some a
    | none =>
      match findIn s.keys k c.B (c.offset 1 k) with
      | some a => some a
      | none => findIn s.keys k c.B (c.offset 2 k)

/-- `query(key)`; lines 668-698; `none` is `sentinel_v`. -/
def query [DecidableEq K] (c : Cfg K) (s : St K) (k : K) : Option Nat :=
  (slotOf c s k).map s.indices

/-- The calls of `resize` (lines 320-341): insert `_activeKeys[i]` with index `i`, not enqueueing it. -/
def resizeTask (active : Nat → K) (i : Nat) : Task K :=
  { key := active i, given := some i, enqueue := false }

/-- `next_2pow` as in `Verif.Bits`; `evaluateTableSize`, lines 154-158. -/
def evaluateTableSize (next2pow : Nat → Nat) (B n : Nat) : Nat :=
  if n = 0 then 0
  else
    let n := next2pow n * 2
    n + (B - n % B)

/-- `atomicSwitchIfEqual` on a slot of eight bytes, of which `pad` are padding; lines 968-986.  The
comparison of the machine operation includes the padding, the shifts of lines 985-986 leave it out. -/
def switchWord (pad : Nat) (mem expected desired : BitVec 64) : BitVec 64 × Bool :=
  (if mem = expected then desired else mem, mem <<< (pad * 8) == expected <<< (pad * 8))

end Verif.Bht
