/-!
Model of `bcht` (bucketed cuckoo hash table) and its sequential host view,
`include/zensim/container/Bcht.hpp`.

`K` is the type of the keys, `S` the type of what is stored in a slot: the key itself for `KeyCompare = true`
(`Cfg.plain`), its hash otherwise (`Cfg.hashed`).  Slot `j` of bucket `b` is `b * B + j`.  The result `none`
is an access outside a vector or an insertion that never returns.

Simplifications: `size_type` and `index_type` are unbounded (fewer than `2^31 - 1` keys), the index -1 is
`none`; the hash functions are arbitrary functions; the number of chains of line 274 (a floating point
logarithm) is an arbitrary function of the capacity; `_buildSuccess` is left out (the host view never reads or writes it); so are the
device insertions of lines 518-1410.
-/
namespace Verif.Bcht

/-- `mars_rng_32`, lines 428-436: the state after a call, which is also the value returned. -/
def mars (y : BitVec 32) : BitVec 32 :=
  let y := y ^^^ (y <<< 13)
  let y := y >>> 17
  y ^^^ (y <<< 5)

/-- The state after `e` calls; the generator is created anew in every insertion with the state of line 430. -/
def marsAt : Nat → BitVec 32
  | 0 => 2463534242#32
  | e + 1 => mars (marsAt e)

/-- The parameters of a table.  `h` are `_hf0`, `_hf1`, `_hf2` applied to a key and `hs` the same functions
applied to what is stored in a slot; `trans` is `transKey`, lines 510-515; `sent` is
`compare_key_sentinel_v`. -/
structure Cfg (K S : Type) where
  /-- `bucket_size` -/
  B : Nat
  /-- `deduce_num_chains`, lines 272-277 -/
  chains : Nat → Nat
  h : Fin 3 → K → Nat
  hs : Fin 3 → S → Nat
  trans : K → S
  sent : S
  /-- `rng() % bucket_size` of the `e`-th eviction; line 1485 -/
  pick : Nat → Nat

/-- The table of `KeyCompare = true`. -/
def Cfg.plain {K : Type} (B : Nat) (chains : Nat → Nat) (h : Fin 3 → K → Nat) (sent : K) : Cfg K K :=
  { B, chains, h, hs := h, trans := id, sent, pick := fun e => (marsAt (e + 1)).toNat % B }

/-- The table of `KeyCompare = false`: the slots hold `_hf0(key)`, which `conv` turns into a key when it is
hashed again in lines 1506-1508. -/
def Cfg.hashed {K S : Type} (B : Nat) (chains : Nat → Nat) (f : Fin 3 → K → S) (toNat : S → Nat) (conv : S → K) (sent : S) : Cfg K S :=
  { B, chains, h := fun i k => toNat (f i k), hs := fun i x => toNat (f i (conv x)), trans := f 0, sent,
    pick := fun e => (marsAt (e + 1)).toNat % B }

structure St (K S : Type) where
  /-- `_numBuckets` -/
  nb : Nat
  /-- `_table.keys` -/
  keys : Nat → S
  /-- `_table.indices` -/
  idx : Nat → Option Nat
  /-- `_cnt` -/
  cnt : Nat
  /-- `_activeKeys` -/
  active : Nat → Option K

def upd {α : Type} (f : Nat → α) (i : Nat) (x : α) : Nat → α := fun j => if j = i then x else f j

variable {K S : Type} [DecidableEq S]

/-- `_capacity` -/
def St.cap (c : Cfg K S) (s : St K S) : Nat := s.nb * c.B

/-- The constructor, lines 279-305: `padded_capacity` (lines 197-200), the number of buckets, the reset of the
keys; indices and active keys are not initialised. -/
def make (c : Cfg K S) (capacity : Nat) : St K S :=
  let padded := if capacity % c.B ≠ 0 then capacity + (c.B - capacity % c.B) else capacity
  { nb := padded * 2 / c.B, keys := fun _ => c.sent, idx := fun _ => none, cnt := 0, active := fun _ => none }

/-- The loop of lines 1435-1437: does bucket `b` hold `x`? -/
def holds (c : Cfg K S) (s : St K S) (b : Nat) (x : S) : Bool :=
  (List.range c.B).any fun i => x = s.keys (b * c.B + i)

/-- `load`, lines 1440-1442: the number of slots of bucket `b` that are not the sentinel. -/
def load (c : Cfg K S) (s : St K S) (b : Nat) : Nat :=
  (List.range c.B).countP fun i => c.sent ≠ s.keys (b * c.B + i)

/-- The return value of an insertion: an index, `sentinel_v` or `failure_token_v`. -/
inductive Ret where
  | index (i : Nat)
  | present
  | failure
deriving DecidableEq

/-- The bucket in which the key evicted from bucket `b` is to be stored; lines 1506-1514. -/
def nextBucket (c : Cfg K S) (nb b : Nat) (x : S) : Nat :=
  let b0 := c.hs 0 x % nb
  let b1 := c.hs 1 x % nb
  let b2 := c.hs 2 x % nb
  let r := b0
  let r := if b = b1 then b2 else r
  if b = b0 then b1 else r

/-- `if (enqueueKey) _activeKeys[no] = key`, line 1480. -/
def enqueue (c : Cfg K S) (s : St K S) (key : K) (enq : Bool) (no : Nat) : Option (St K S × Ret) :=
  if enq then
    if no < s.cap c then some ({ s with active := upd s.active no (some key) }, .index no) else none
  else some (s, .index no)

/-- The loop of lines 1434-1521.  `n` is the number of times the condition of line 1521 will still hold, `e`
the number of evictions so far, `x` and `i` the key and index to be stored, `no` the index of `key`. -/
def loop (c : Cfg K S) (key : K) (enq : Bool) : Nat → Nat → St K S → Nat → S → Option Nat → Option Nat → Option (St K S × Ret)
  | n, e, s, b, x, i, no =>
    if holds c s b x then some (s, .present)
    else
      -- lines 1471-1474, 1497-1500
      let no' := match i with
        | none => some s.cnt
        | some _ => no
      let i' := match i with
        | none => s.cnt
        | some j => j
      let cnt := match i with
        | none => s.cnt + 1
        | some _ => s.cnt
      let l := load c s b
      if l ≠ c.B then
        if s.keys (b * c.B + l) = c.sent then
          let s' := { s with keys := upd s.keys (b * c.B + l) x, idx := upd s.idx (b * c.B + l) (some i'), cnt }
          no'.bind (enqueue c s' key enq)
        else none
      else
        let q := b * c.B + c.pick e
        let old := s.keys q
        let oldIdx := s.idx q
        let s' := { s with keys := upd s.keys q x, idx := upd s.idx q (some i'), cnt }
        match n with
        | 0 => some (s', .failure)
        | n + 1 => loop c key enq n (e + 1) s' (nextBucket c s.nb b old) old oldIdx no'

/-- `insert(key, insertion_index, enqueueKey)`, lines 1417-1523. -/
def insert (c : Cfg K S) (s : St K S) (key : K) (i : Option Nat) (enq : Bool) : Option (St K S × Ret) :=
  if s.nb = 0 then some (s, .failure)
  else loop c key enq (c.chains (s.cap c) - 1) 0 s (c.h 0 key % s.nb) (c.trans key) i i

/-- The slot at which the search of lines 1525-1569 ends, or whether it ended in a bucket that is not full
(`.inl true`) or after three buckets (`.inl false`). -/
def find (c : Cfg K S) (s : St K S) (key : K) : List (Fin 3) → Bool ⊕ Nat
  | [] => .inl false
  | i :: r =>
    let b := c.h i key % s.nb
    match (List.range c.B).find? fun j => c.trans key = s.keys (b * c.B + j) with
    | some j => .inr (b * c.B + j)
    | none => if load c s b < c.B then .inl true else find c s key r

/-- `query(key)`, lines 1525-1569. `none` is -1. -/
def query (c : Cfg K S) (s : St K S) (key : K) : Option Nat :=
  if s.nb = 0 then none
  else
    match find c s key [0, 1, 2] with
    | .inr q => s.idx q
    | .inl _ => none

/-- The result of `entry`, lines 1574-1577: a slot, -1 or the largest index. -/
inductive Entry where
  | slot (q : Nat)
  | minusOne
  | max
deriving DecidableEq

/-- `entry(key)`, i.e. `query(key, false_c)`. -/
def entry (c : Cfg K S) (s : St K S) (key : K) : Entry :=
  if s.nb = 0 then .max
  else
    match find c s key [0, 1, 2] with
    | .inr q => .slot q
    | .inl true => .minusOne
    | .inl false => .max

/-- `universal_hash` of a 32-bit integer, `py_interop/HashUtils.hpp`, lines 22-25. -/
def universal (x y k : BitVec 32) : BitVec 32 := ((x ^^^ k) + y) % 4294967291#32

/-- The hash functions of a table, lines 297-301: their parameters are the first numbers of `mt19937(2)`
(taken as given). -/
def hf : Fin 3 → BitVec 32 → BitVec 32
  | 0 => universal 1872583848 794921487
  | 1 => universal 111352301 4000937544
  | 2 => universal 2360782358 4070471979

/-- `reset(clearCnt)`, lines 387-394. -/
def reset (c : Cfg K S) (s : St K S) (clear : Bool) : St K S :=
  { s with keys := fun _ => c.sent, cnt := if clear then 0 else s.cnt }

/-- The insertions of `resize`, lines 423-425, for the sequential policy. Reading an active key that was
never written is `none`. The results of the insertions, which the code ignores, are returned too. -/
def again (c : Cfg K S) : List Nat → St K S → Option (St K S × List Ret)
  | [], s => some (s, [])
  | i :: r, s =>
    match s.active i with
    | none => none
    | some k => (insert c s k (some i) false).bind fun p => (again c r p.1).map fun q => (q.1, p.2 :: q.2)

/-- `resize(pol, newCapacity)`, lines 411-426. -/
def resize (c : Cfg K S) (s : St K S) (newCapacity : Nat) : Option (St K S × List Ret) :=
  let padded := if newCapacity % c.B ≠ 0 then newCapacity + (c.B - newCapacity % c.B) else newCapacity
  if padded * 2 ≤ s.cap c then some (s, [])
  else again c (List.range s.cnt) (reset c { s with nb := padded * 2 / c.B } false)

end Verif.Bcht
