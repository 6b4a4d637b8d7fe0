import Verif.Model.Volumes
import Verif.Model.MergeSort

/-!
Model of `LBvs` and `LBvsView`, `include/zensim/container/Bvs.hpp`: boxes in the order of their lower ends along one axis.
Numbers are real, indices do not wrap around.  A read outside of an array is `none`.  The policies run the iterations of the loops in order.
-/
namespace Verif.Lbvs
open Verif.Shapes Verif.Volumes

/-- Lines 187-190; `dim` is `n + 1`, an element of `bvs` has the rows `min` and `max` of the tile vector. -/
structure LBvs (n : ℕ) where
  bvs : List (Cuboid (n + 1))
  axis : Fin (n + 1)
  sts : List ℝ
  auxIndices : List ℕ

variable {n : ℕ}

/-- `getBox`, lines 54-74: the two reductions of every axis.  `big` is the largest number. -/
noncomputable def getBox (big : ℝ) (bvs : List (Cuboid (n + 1))) : Cuboid (n + 1) :=
  ⟨fun d => (bvs.map fun b => b.min d).foldl Min.min big, fun d => (bvs.map fun b => b.max d).foldl Max.max (-big)⟩

/-- Lines 107-115. -/
noncomputable def longest (gbv : Cuboid (n + 1)) : Fin (n + 1) :=
  ((List.finRange n).foldl (fun (p : ℝ × Fin (n + 1)) d =>
    let tmp := gbv.max d.succ - gbv.min d.succ
    if tmp > p.1 then (tmp, d.succ) else p) (gbv.max 0 - gbv.min 0, 0)).2

/-- Lines 98-118. -/
noncomputable def pickAxis (big : ℝ) (prims : List (Cuboid (n + 1))) (axis : ℤ) : Fin (n + 1) :=
  if h : 0 ≤ axis ∧ axis < n + 1 then ⟨axis.toNat, by omega⟩ else longest (getBox big prims)

/-- The loop of lines 151-158 and 177-184. -/
def gather (prims : List (Cuboid (n + 1))) (aux : List ℕ) : Option (List (Cuboid (n + 1))) := aux.mapM fun src => prims[src]?

/-- `build`, lines 76-159.  `sorter` is `radix_sort_pair` of the device (the ones of the host do not take keys that are not integers) or the `merge_sort_pair` of the alternative in lines 137-149. -/
noncomputable def build (sorter : List (ℝ × ℕ) → List (ℝ × ℕ)) (big : ℝ) (prims : List (Cuboid (n + 1))) (axis : ℤ) : Option (LBvs n) :=
  let ax := pickAxis big prims axis
  let sorted := sorter (prims.zipIdx.map fun p => (p.1.min ax, p.2))
  (gather prims (sorted.map Prod.snd)).map fun bvs => ⟨bvs, ax, sorted.map Prod.fst, sorted.map Prod.snd⟩

/-- What `refit` ends in: an exception of line 166, or the new state. -/
inductive Refitted (n : ℕ)
  | mismatch
  | done (l : LBvs n)

/-- `refit`, lines 161-185, with the check of the memory location passed. -/
def refit (sorter : List (ℝ × ℕ) → List (ℝ × ℕ)) (l : LBvs n) (prims : List (Cuboid (n + 1))) : Option (Refitted n) :=
  if prims.length ≠ l.bvs.length then some .mismatch else
  (l.auxIndices.mapM fun src => prims[src]?.map fun b => (b.min l.axis, src)).bind fun pairs =>
    let sorted := sorter pairs
    (gather prims (sorted.map Prod.snd)).map fun bvs => .done ⟨bvs, l.axis, sorted.map Prod.fst, sorted.map Prod.snd⟩

/-- The arrays before the sort. -/
def pairMem (l : List (ℝ × ℕ)) : MergeSort.Mem (ℝ × ℕ)
  | .arr false i => .elt (l.getD i default)
  | _ => .num 0

/-- `std::less` on the keys. -/
noncomputable def keyLess (a b : ℝ × ℕ) : Bool := decide (a.1 < b.1)

/-- `merge_sort_pair` of the sequential policy, line 174. -/
noncomputable def seqSort (l : List (ℝ × ℕ)) : List (ℝ × ℕ) :=
  (List.range l.length).map (MergeSort.at_ (Phase.exec (MergeSort.seqMergeSort keyLess l.length) (pairMem l)) false)

/-- `_bvs(_axis, i)`. -/
def LBvs.key (l : LBvs n) (i : ℤ) : Option ℝ := if 0 ≤ i then l.bvs[i.toNat]?.map fun b => b.min l.axis else none

/-- The loop of `locate`, lines 230-236. -/
noncomputable def locateLoop (l : LBvs n) (v : ℝ) (left right : ℤ) : Option ℤ :=
  if _h : left ≤ right then
    let mid := left + (right - left) / 2
    match l.key mid with
    | none => none
    | some k => if k > v then locateLoop l v left (mid - 1) else locateLoop l v (mid + 1) right
  else some right
termination_by (right + 1 - left).toNat
decreasing_by all_goals omega

/-- `locate`, lines 227-238. -/
noncomputable def locate (l : LBvs n) (v : ℝ) : Option ℤ := locateLoop l v 0 (l.bvs.length - 1)

/-- The loops of lines 243-246 and 252-255: the indices that `f` is called with. -/
noncomputable def visit (l : LBvs n) (bv : Cuboid (n + 1)) (i ed : ℤ) : Option (List ℕ) :=
  if _h : i ≤ ed then
    if i < 0 then none else
    l.auxIndices[i.toNat]?.bind fun primid =>
    l.bvs[i.toNat]?.bind fun node =>
    (visit l bv (i + 1) ed).map fun rest => if overlapsBB node bv then primid :: rest else rest
  else some []
termination_by (ed + 1 - i).toNat
decreasing_by omega

/-- `iter_neighbors`, lines 241-248. -/
noncomputable def iterNeighbors (l : LBvs n) (bv : Cuboid (n + 1)) : Option (List ℕ) := (locate l (bv.max l.axis)).bind fun ed => visit l bv 0 ed

/-- `self_iter_neighbors`, lines 249-257. -/
noncomputable def selfIterNeighbors (l : LBvs n) (node : ℕ) : Option (List ℕ) :=
  l.bvs[node]?.bind fun bv => (locate l (bv.max l.axis)).bind fun ed => visit l bv (node + 1) ed

end Verif.Lbvs
