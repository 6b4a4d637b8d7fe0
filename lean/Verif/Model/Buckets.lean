import Verif.Model.Bvtt
import Mathlib.Algebra.Order.Floor.Ring
import Mathlib.Algebra.Order.Field.Basic
import Mathlib.Data.Fin.VecNotation
import Mathlib.Data.Fintype.Basic

/-!
Model of the sparsity operations and of the buckets of particles.

`S` is `include/zensim/simulation/sparsity/SparsityOp.hpp`, `B` is `include/zensim/container/IndexBuckets.hpp`, `Q` is `include/zensim/simulation/particle/Query.tpp`, and `W` is
`include/zensim/cuda/simulation/wrangler/ParticleWrangler.cpp`.

Exact arithmetic; cells and indices do not overflow.  The table is the list of its active keys (C38); a query gives the position of the key, `none` stands for -1.  An index outside of an array is `none`.
The loops over the particles can run in any order: an iteration is one insertion, or one atomic addition and a write to a cell of its own.
-/
namespace Verif.Buckets

variable {K : Type} [Field K] [LinearOrder K] [FloorRing K] {d : Nat}

/-- A cell. -/
abbrev Key (d : Nat) := Fin d → Int

/-- S lines 72-74. -/
def coord (dx disp : K) (offset : Int) (x : Fin d → K) : Key d := fun a => ⌊x a * (1 / dx) + disp⌋ + offset

/-- S lines 75-77. -/
def blockId (blockLen : Int) (c : Key d) : Key d := fun a => Int.tdiv (c a + (if c a < 0 then -blockLen + 1 else 0)) blockLen

/-- The table after an insertion (C38). -/
def insert (L : List (Key d)) (k : Key d) : List (Key d) := if k ∈ L then L else L ++ [k]

/-- `query`. -/
def query (L : List (Key d)) (k : Key d) : Option Nat := if k ∈ L then some (L.idxOf k) else none

/-- `ComputeSparsity`, S lines 71-79, of the particles in the order of their insertions. -/
def computeSparsity (dx disp : K) (blockLen offset : Int) (x : Nat → Fin d → K) (L : List (Key d)) (o : List Nat) : List (Key d) :=
  o.foldl (fun L i => insert L (blockId blockLen (coord dx disp offset (x i)))) L

/-- The values of a loop `for (v = lo; v < hi; ++v)`. -/
def ints (lo hi : Int) : List Int := (List.range (hi - lo).toNat).map fun n : Nat => lo + n

/-- `EnlargeSparsity` in space, S lines 97-102. -/
def enlarge3 (lo hi : Key 3) (L : List (Key 3)) (k : Key 3) : List (Key 3) :=
  (ints (lo 0) (hi 0)).foldl (fun L dx => (ints (lo 1) (hi 1)).foldl (fun L dy => (ints (lo 2) (hi 2)).foldl (fun L dz => insert L (k + ![dx, dy, dz])) L) L) L

/-- `EnlargeSparsity` in the plane, S lines 104-106. -/
def enlarge2 (lo hi : Key 2) (L : List (Key 2)) (k : Key 2) : List (Key 2) :=
  (ints (lo 0) (hi 0)).foldl (fun L dx => (ints (lo 1) (hi 1)).foldl (fun L dy => insert L (k + ![dx, dy])) L) L

/-- `SpatiallyCount`, S lines 132-143; the counters are one more than the cells. -/
def count (L : List (Key d)) (cell : Nat → Key d) : List Nat → (Nat → Nat) → Option (Nat → Nat)
  | [], c => some c
  | i :: is, c => (query L (cell i)).bind fun q => if q < L.length + 1 then count L cell is (Bvtt.upd c q (c q + 1)) else none

/-- `SpatiallyDistribute`, S lines 174-187. -/
def distribute (L : List (Key d)) (cell : Nat → Key d) (off : Nat → Nat) : List Nat → (Nat → Nat) → List Nat → Option (List Nat)
  | [], _, ix => some ix
  | i :: is, c, ix => (query L (cell i)).bind fun q =>
    if q < L.length + 1 then
      let dst := off q + c q
      if dst < ix.length then distribute L cell off is (Bvtt.upd c q (c q + 1)) (ix.set dst i) else none
    else none

/-- B lines 55-58; `counts` and `offsets` have one entry more than there are cells. -/
structure IndexBuckets (K : Type) (d : Nat) where
  table : List (Key d)
  indices : List Nat
  offsets : Nat → Nat
  counts : Nat → Nat
  dx : K

/-- `index_buckets_for_particles`, Q lines 12-57, of `n` particles; `o0`, `o1` and `o2` are the orders of the loops, `junk` what is in the new array. -/
def build (dx disp : K) (n : Nat) (x : Nat → Fin d → K) (junk : Nat → Nat) (o0 o1 o2 : List Nat) : Option (IndexBuckets K d) :=
  let table := computeSparsity dx disp 1 0 x [] o0
  let cell := fun i => blockId 1 (coord dx disp 0 (x i))
  (count table cell o1 fun _ => 0).bind fun counts =>
  (distribute table cell (Bvtt.offsets counts) o2 (fun _ => 0) ((List.range n).map junk)).map fun indices => ⟨table, indices, Bvtt.offsets counts, counts, dx⟩

/-- `bucketCoord`, B lines 83-84 and 101-107, for the collocated buckets that `build` makes. -/
def bucketCoord (b : IndexBuckets K d) (x : Fin d → K) : Key d := fun a => ⌊x a * (1 / b.dx) + 1 / 2⌋

/-- The particles of a bucket, W lines 90-93. -/
def bucket (b : IndexBuckets K d) (q : Nat) : List Nat := (List.range (b.counts q)).map fun j => b.indices.getD (b.offsets q + j) 0

/-- The offsets of the 27 cells, W line 135. -/
def around : List (Key 3) := (ints 0 3).flatMap fun a => (ints 0 3).flatMap fun b => (ints 0 3).map fun c => ![a, b, c]

/-- The particles for which the function of a particle is called, W lines 132-157, with the test for the distance. -/
def neighbours (b : IndexBuckets K 3) (x : Nat → Fin 3 → K) (inRange : (Fin 3 → K) → (Fin 3 → K) → Bool) (i : Nat) : List Nat :=
  let coord : Key 3 := fun a => bucketCoord b (x i) a - 1
  around.flatMap fun o => match query b.table (coord + o) with
    | none => []
    | some q => (bucket b q).filter fun j => !(j == i) && inRange (x i) (x j)

end Verif.Buckets
