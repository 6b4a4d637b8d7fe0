/-
Model of the integer ranges, `Collapse`, `zip`/`enumerate` and `chunk_view` in
`include/zensim/ZpcIterator.hpp` and of the two ways ranges are consumed.

Index types are unbounded integers (no overflow).
-/
namespace Verif.Iter

/-- A range-for loop (`for (it = begin; it != end; ++it)`): the iterator states visited.
`eq` is `operator==`, `inc` is `operator++`.  `none` = not finished within the fuel. -/
def visit {σ} (eq : σ → σ → Bool) (inc : σ → σ) (last : σ) : Nat → σ → Option (List σ)
  | 0, _ => none
  | f + 1, s => if eq s last then some [] else (visit eq inc last f (inc s)).map (s :: ·)

/-- The parallel loop of the OpenMP policy: `dist = end - begin; for (i = 0; i < dist; ++i)` over
`*(begin + i)`; omp/execution/ExecutionPolicy.hpp lines 92-97.  The indices it uses. -/
def parIndices (dist : Int) : List Int := (List.range dist.toNat).map Int.ofNat

/-! ### IndexIterator and integer ranges -/

/-- `IndexIterator`; ZpcIterator.hpp lines 441-462. -/
structure Index where
  base : Int
  stride : Int

/-- line 454 -/
def Index.equalTo (a b : Index) : Bool := a.base = b.base
/-- line 455 -/
def Index.advance (a : Index) (off : Int) : Index := { a with base := a.base + a.stride * off }
/-- line 453 -/
def Index.deref (a : Index) : Int := a.base
/-- lines 456-458 -/
def Index.distanceTo (a b : Index) : Int := b.base - a.base

/-- `range(begin, end, increment)`; lines 636-646 (`%` truncates). -/
def range3 (b e inc : Int) : Index × Index :=
  let actualEnd := e - (e - b).tmod inc
  (⟨b, inc⟩, ⟨actualEnd, inc⟩)

/-- `range(begin, end)`; lines 647-653. -/
def range2 (b e : Int) : Index × Index := range3 b e (if b < e then 1 else -1)

/-- values seen by a range-for loop over an integer range -/
def seqValues (r : Index × Index) (fuel : Nat) : Option (List Int) :=
  (visit Index.equalTo (·.advance 1) r.2 fuel r.1).map (·.map Index.deref)

/-- values seen by the parallel loop over an integer range -/
def parValues (r : Index × Index) : List Int :=
  (parIndices (r.1.distanceTo r.2)).map fun i => (r.1.advance i).deref

/-! ### Collapse -/

/-- `increment_impl<I>`; lines 529-537.  The tuple of (extent, index) pairs is stored last dimension
first, so that the compile-time recursion from `dim - 1` down to `0` is structural. -/
def collapseInc : List (Nat × Nat) → List (Nat × Nat)
  | [] => []
  | [(n, i)] => [(n, i + 1)]
  | (n, i) :: r => if i + 1 ≥ n then (n, 0) :: collapseInc r else (n, i + 1) :: r

/-- `equal_to`; lines 526-528. -/
def collapseEq (a b : List (Nat × Nat)) : Bool := a.map (·.2) == b.map (·.2)

/-- begin iterator; lines 520-521, 542 (`ns` is given last dimension first). -/
def collapseBegin (nsRev : List Nat) : List (Nat × Nat) := nsRev.map (·, 0)

/-- end iterator; lines 522-523, 543: the first dimension has its extent, the others 0. -/
def collapseEnd : List Nat → List (Nat × Nat)
  | [] => []
  | [n] => [(n, n)]
  | n :: r => (n, 0) :: collapseEnd r

/-- dereference: the index tuple, first dimension first; line 525. -/
def collapseDeref (s : List (Nat × Nat)) : List Nat := (s.map (·.2)).reverse

/-- multi-indices visited by a range-for loop over `ndrange(ns...)` -/
def collapseValues (ns : List Nat) (fuel : Nat) : Option (List (List Nat)) :=
  (visit collapseEq collapseInc (collapseEnd ns.reverse) fuel (collapseBegin ns.reverse)).map
    (·.map collapseDeref)

/-! ### zip -/

/-- `zip_iterator`: component iterators as positions in their ranges; lines 576-619.
`equal_to`: some component equal; lines 596-598. -/
def zipEq (a b : List Nat) : Bool := (a.zip b).any fun p => p.1 == p.2

/-- `increment` / `advance(1)`; lines 599-606. -/
def zipInc (a : List Nat) : List Nat := a.map (· + 1)

/-- `distance_to`: the least component distance, starting from the numeric maximum;
lines 607-615. -/
def zipDist (maxv : Int) (a b : List Nat) : Int :=
  (a.zip b).foldl (fun d p => if d < (p.2 : Int) - p.1 then d else (p.2 : Int) - p.1) maxv

/-- dereference: the tuple of component elements (`none`: some component is past its end);
line 594. -/
def zipDeref {α} (rs : List (List α)) (a : List Nat) : Option (List α) :=
  (rs.zip a).mapM fun p => p.1[p.2]?

/-- tuples seen by a range-for loop over `zip(rs...)`; lines 691-695. -/
def zipValues {α} (rs : List (List α)) (fuel : Nat) : Option (List (List α)) := do
  let st ← visit zipEq zipInc (rs.map List.length) fuel (rs.map fun _ => 0)
  st.mapM (zipDeref rs)

/-! ### chunk_view -/

/-- `iterator_impl` of `chunk_view`; lines 733-759. -/
structure Chunk where
  chunkNo : Nat

/-- `equal_to` compares its argument with itself; lines 747-749. -/
def Chunk.equalTo (_a b : Chunk) : Bool := b.chunkNo == b.chunkNo

/-- `advance`; line 750. -/
def Chunk.advance (a : Chunk) (k : Nat) : Chunk := ⟨a.chunkNo + k⟩

/-- `distance_to`; lines 751-753. -/
def Chunk.distanceTo (a b : Chunk) : Int := (b.chunkNo : Int) - a.chunkNo

/-- `dereference`: the sub-range; lines 741-746. -/
def Chunk.deref {α} (l : List α) (size : Nat) (a : Chunk) : List α :=
  let st := a.chunkNo * size
  let ed := st + size
  let ed := if ed > l.length then l.length else ed
  (l.drop st).take (ed - st)

/-- `begin()`; lines 761-765. -/
def chunkBegin : Chunk := ⟨0⟩

/-- `end()`; lines 766-771. -/
def chunkEnd (len size : Nat) : Chunk := ⟨(len + size - 1) / size⟩

/-- pieces seen by a range-for loop -/
def chunkValues {α} (l : List α) (size : Nat) (fuel : Nat) : Option (List (List α)) :=
  (visit Chunk.equalTo (·.advance 1) (chunkEnd l.length size) fuel chunkBegin).map
    (·.map (Chunk.deref l size))

/-- pieces seen by the parallel loop -/
def chunkParValues {α} (l : List α) (size : Nat) : List (List α) :=
  (List.range (chunkBegin.distanceTo (chunkEnd l.length size)).toNat).map fun i =>
    Chunk.deref l size (chunkBegin.advance i)

end Verif.Iter
