/-!
The hash table view for compiled kernels, `/repo/include/zensim/py_interop/BhtView.hpp`, used by one thread (the branches for sequential
execution, lines 650-734 and 854-938, which have the same text; the branch for OpenMP, lines 448-532, differs in the tag of the atomic only).

Simplified: a bucket is the list of its filled slots; slots are filled from the front and never emptied, so the first empty slot is the
one behind them and the last slot stays empty. The keys are of any type with equality, and none is the sentinel. Only the calls with default
arguments (a new index, key recorded). The counter does not wrap.
-/
namespace Verif.LiteBht

/-- Size and number of buckets (line 104), and the three hash functions. -/
structure Par (K : Type) where
  /-- `bucket_size`, line 21 -/
  size : Nat
  /-- `_numBuckets`, line 104 -/
  num : Nat
  hash : Nat → K → Nat

/-- `_tableSize` of a table whose size is a multiple of the bucket size. -/
def Par.tableSize {K : Type} (p : Par K) : Nat := p.num * p.size

/-- `_hfi(key) % _numBuckets`. -/
def Par.place {K : Type} (p : Par K) (i : Nat) (k : K) : Nat := p.hash i k % p.num

/-- The memory of the table: slots with key and index, counter, recorded keys and the flag. -/
structure Table (K : Type) where
  bucket : Nat → List (K × Nat)
  cnt : Nat
  active : Nat → Option K
  success : Bool

/-- What `insert` returns: `sentinel_v`, `failure_token_v`, or an index. -/
inductive Res where
  | present | failure | index (n : Nat)
  deriving DecidableEq

/-- An empty table. -/
def Table.empty (K : Type) : Table K := ⟨fun _ => [], 0, fun _ => none, true⟩

variable {K : Type} [DecidableEq K]

/-- The key is in a slot of the bucket. -/
def Table.has (t : Table K) (b : Nat) (k : K) : Bool := (t.bucket b).any fun e => decide (e.1 = k)

/-- The slot is taken: index from the counter, slot and recorded key written, lines 673-685; the message of lines 683-684 has no effect. -/
def Table.put (t : Table K) (b : Nat) (k : K) : Table K :=
  { t with
    bucket := fun x => if x = b then t.bucket b ++ [(k, t.cnt)] else t.bucket x
    cnt := t.cnt + 1
    active := fun n => if n = t.cnt then some k else t.active n }

/-- The loop of `insert` over the rounds, lines 658-699. -/
def insertGo (p : Par K) (t : Table K) (k : K) : List Nat → Res × Table K
  | [] => (.failure, { t with success := false })
  | i :: is =>
    if t.has (p.place i k) k then (.present, t)
    else if (t.bucket (p.place i k)).length ≤ p.size - 2 then (.index t.cnt, t.put (p.place i k) k)
    else insertGo p t k is

/-- `insert`, lines 650-700. -/
def insert (p : Par K) (t : Table K) (k : K) : Res × Table K :=
  if p.num = 0 then (.failure, t) else insertGo p t k [0, 1, 2]

/-- The loop of `query`, lines 713-729. -/
def queryGo (p : Par K) (t : Table K) (k : K) : List Nat → Option Nat
  | [] => none
  | i :: is =>
    match (t.bucket (p.place i k)).find? fun e => decide (e.1 = k) with
    | some e => some e.2
    | none => queryGo p t k is

/-- `query`, lines 703-734; `none` is `sentinel_v`. -/
def query (p : Par K) (t : Table K) (k : K) : Option Nat :=
  if p.num = 0 then none else queryGo p t k [0, 1, 2]

/-- Insertions one after the other. -/
def run (p : Par K) (ks : List K) : Table K := ks.foldl (fun t k => (insert p t k).2) (Table.empty K)

end Verif.LiteBht
