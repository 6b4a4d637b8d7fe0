import Verif.Model.Bvh
import Verif.Model.Radix
import Verif.Model.SparseBuild
/-!
Model of `LBvh::build`, `include/zensim/container/Bvh.hpp` (line numbers refer to this file): the kernels 178-337 and `build`
810-1092.

A kernel launch is an arbitrary interleaving of the writes of its tasks.  No task reads an array that the same launch writes
(except cells that only it writes), so that what a task reads does not depend on the order.
Simplifications:
* the Morton codes are arbitrary 32-bit numbers: the kernel that computes them (177-187) and the box of everything are not modelled.
* subscripts are integers that do not overflow (`index_type` is `int`: the code needs fewer than 2^29 primitives, because the
  exponential search doubles `step`).
* loops have fuel; `none` is an access out of bounds or a loop that does not end.
* `levels` and `leafInds` are read back as natural numbers.
-/
namespace Verif.Bvh
open Verif.Phase

/-- `count_lz(execTag, x)` on the host, execution/Intrinsics.hpp lines 330-351. -/
def countLz (x : BitVec 32) : Nat := if x = 0 then 32 else 31 - x.toNat.log2

/-- The arrays, lines 836-855. -/
inductive Arr where
  | tPars | tLcs | tRcs | tLs | tRs | tDst | lPars | lLcas | pInds | lDepths | aux | parents | levels | lInds
deriving DecidableEq

abbrev Mem := Arr → List Int

inductive Op where
  | set (a : Arr) (i v : Int)
  | add (a : Arr) (i : Int)
deriving DecidableEq

/-- A write. -/
def Op.run (m : Mem) : Op → Option Mem
  | .set a i v => (at? (m a) i).map fun _ => upd m a ((m a).set i.toNat v)
  | .add a i => (at? (m a) i).map fun v => upd m a ((m a).set i.toNat (v + 1))

/-- Launch of `n` tasks. -/
inductive Launch (n : Nat) (task : Nat → Option (List Op)) (m : Mem) : Option Mem → Prop
  | task : (List.range n).mapM task = none → Launch n task m none
  | run (ts : List (List Op)) (sched : List Op) : (List.range n).mapM task = some ts →
      Interleave n (fun k => ts.getD k []) sched → Launch n task m (sched.foldlM Op.run m)

/-! ## The kernels -/

/-- `_build_init_depths`, lines 188-197. -/
def initTask (sorted : List Nat) (numTrunk : Nat) (idx : Nat) : Option (List Op) :=
  sorted[idx]?.map fun ind => [.set .pInds idx ind, .set .lDepths idx 1] ++ if idx = 0 then [.set .lDepths (numTrunk + 1) 0] else []

/-- Whether the code at `right` has more than `minLZ` leading digits in common with `cur`, lines 229-231, 236-237. -/
def shares (mcs : List (BitVec 32)) (cur : BitVec 32) (minLZ : Nat) (right : Int) : Option Bool :=
  if right < mcs.length ∧ 0 ≤ right then (at? mcs right).map fun c => decide (minLZ < countLz (c ^^^ cur)) else some false

/-- `for (step = 2; ..; step <<= 1);`, lines 228-232. -/
def grow (mcs : List (BitVec 32)) (cur : BitVec 32) (minLZ : Nat) (left dir : Int) : Nat → Int → Option Int
  | 0, _ => none
  | fuel + 1, step => (shares mcs cur minLZ (left + step * dir)).bind fun b => if b then grow mcs cur minLZ left dir fuel (step * 2) else some step

/-- `for (len = 0, step >>= 1; step >= 1; step >>= 1)`, lines 233-238. -/
def bisect (mcs : List (BitVec 32)) (cur : BitVec 32) (minLZ : Nat) (left dir : Int) : Nat → Int → Int → Option Int
  | 0, _, _ => none
  | fuel + 1, len, step =>
    if 1 ≤ step then (shares mcs cur minLZ (left + (len + step) * dir)).bind fun b =>
      bisect mcs cur minLZ left dir fuel (if b then len + step else len) (step / 2)
    else some len

/-- `for (++right; right < num_leaves - 1; ++right) if (mcs(right) != mcs(right + 1)) break;`, lines 217-218. -/
def runRight (mcs : List (BitVec 32)) : Nat → Int → Option Int
  | 0, _ => none
  | fuel + 1, right =>
    if right < (mcs.length : Int) - 1 then (at? mcs right).bind fun a => (at? mcs (right + 1)).bind fun b =>
      if a ≠ b then some right else runRight mcs fuel (right + 1)
    else some right

/-- The range of a node, lines 202-251. -/
def rangeOf (mcs : List (BitVec 32)) (idx : Nat) : Option (Int × Int) :=
  if idx = 0 then some (0, (mcs.length : Int) - 1)
  else (at? mcs (idx - 1)).bind fun pre => (at? mcs idx).bind fun cur => (at? mcs (idx + 1)).bind fun nxt =>
    if pre = cur ∧ cur = nxt then (runRight mcs (mcs.length + 1) (idx + 1)).map fun j => (idx, j)
    else
      let lLZ := countLz (pre ^^^ cur)
      let rLZ := countLz (nxt ^^^ cur)
      let dir : Int := if rLZ < lLZ then -1 else 1
      let minLZ := if rLZ < lLZ then rLZ else lLZ
      (grow mcs cur minLZ idx dir (mcs.length + 1) 2).bind fun step =>
        (bisect mcs cur minLZ idx dir (step.toNat + 1) 0 (step / 2)).map fun len =>
          if dir = 1 then (idx, idx + len) else (idx - len, idx)

/-- `for (step = (j - i + 1) >> 1, len = 0; true; step = (step + 1) >> 1)`, lines 263-267. -/
def splitLoop (mcs : List (BitVec 32)) (numTrunk i : Int) (lCode : BitVec 32) (LZ : Nat) : Nat → Int → Int → Option Int
  | 0, _, _ => none
  | fuel + 1, len, step =>
    if numTrunk < i + len + step then splitLoop mcs numTrunk i lCode LZ fuel len ((step + 1) / 2)
    else (at? mcs (i + len + step)).bind fun c =>
      let len := if LZ < countLz (c ^^^ lCode) then len + step else len
      if step ≤ 1 then some len else splitLoop mcs numTrunk i lCode LZ fuel len ((step + 1) / 2)

/-- The split of a range, lines 255-269. -/
def splitOf (mcs : List (BitVec 32)) (numTrunk i j : Int) : Option Int :=
  (at? mcs i).bind fun lCode => (at? mcs j).bind fun rCode =>
    if lCode = rCode then some i
    else (splitLoop mcs numTrunk i lCode (countLz (lCode ^^^ rCode)) ((j - i).toNat + 2) 0 ((j - i + 1) / 2)).map fun len => i + len

/-- `_build_build_topo`, lines 198-287. -/
def topoTask (mcs : List (BitVec 32)) (numTrunk : Nat) (idx : Nat) : Option (List Op) :=
  (rangeOf mcs idx).bind fun (i, j) => (splitOf mcs numTrunk i j).map fun gamma =>
    let mi := if i < j then i else j
    let ma := if j < i then i else j
    [.add .lDepths i, .set .tLs idx i, .set .tRs idx j, .set .tLcs idx gamma, .set .tRcs idx (gamma + 1)] ++
    (if mi = gamma then [.set .lPars gamma idx, .set .tLcs idx (gamma + numTrunk)] else [.set .tPars gamma idx]) ++
    (if ma = gamma + 1 then [.set .lPars (gamma + 1) idx, .set .tRcs idx (gamma + 1 + numTrunk)] else [.set .tPars (gamma + 1) idx]) ++
    (if idx = 0 then [.set .tPars 0 (-1)] else [])

/-- `for (; --depth; node = tPars[node], --dst)`, lines 296-300: the writes, and the last value of `ch`. -/
def suppLoop (tPars : List Int) : Nat → (depth dst node ch level : Int) → Option (List Op × Int)
  | 0, _, _, _, _, _ => none
  | fuel + 1, depth, dst, node, ch, level =>
    if depth - 1 = 0 then some ([], ch)
    else (at? tPars node).bind fun p => (suppLoop tPars fuel (depth - 1) (dst - 1) p node (level + 1)).map fun (ops, c) =>
      (.set .tDst node dst :: .set .levels dst (level + 1) :: ops, c)

/-- `_build_supp_topo`, lines 288-303. -/
def suppTask (offs : List Nat) (m : Mem) (numTrunk : Nat) (idx : Nat) : Option (List Op) :=
  offs[idx + 1]?.bind fun o1 => offs[idx]?.bind fun o0 => (m .lPars)[idx]?.bind fun node =>
    (suppLoop (m .tPars) (o1 + 1) ((o1 : Int) - o0) ((o1 : Int) - 2) node ((idx : Int) + numTrunk) 0).map fun (ops, ch) => ops ++ [.set .lLcas idx ch]

/-- `_build_reorder_leaf`, lines 304-318. -/
def leafTask (offs : List Nat) (m : Mem) (idx : Nat) : Option (List Op) :=
  offs[idx + 1]?.bind fun o1 => (m .pInds)[idx]?.bind fun p => (m .lPars)[idx]?.bind fun par => (at? (m .tDst) par).map fun d =>
    let dst : Int := (o1 : Int) - 1
    [.set .aux dst p, .set .parents dst d, .set .levels dst 0, .set .lInds idx dst]

/-- `_build_reorder_trunk`, lines 319-337. -/
def trunkTask (offs : List Nat) (m : Mem) (numTrunk : Nat) (idx : Nat) : Option (List Op) :=
  (m .tDst)[idx]?.bind fun dst => (m .tRs)[idx]?.bind fun r =>
    (if r ≠ numTrunk then (at? (m .lLcas) (r + 1)).bind fun lca =>
        if lca < numTrunk then at? (m .tDst) lca else (at? offs (r + 1)).map fun o : Nat => (o : Int)
      else some (-1)).bind fun esc =>
    (if idx ≠ 0 then (m .tPars)[idx]?.bind fun p => at? (m .tDst) p else some (-1)).map fun par =>
      [.set .aux dst esc, .set .parents dst par]

/-! ## `build` -/

/-- `radix_sort_pair(policy, mcs.begin(), indices.begin(), sortedMcs.begin(), sortedIndices.begin(), numLeaves)`, lines 897-901. -/
def SortRun (mcs : List (BitVec 32)) (sorted : List (BitVec 32 × Nat)) : Prop :=
  ∃ s s' : Radix.Mem 32 Nat, (∀ i, i < mcs.length → s (.inp i) = .elt (mcs.getD i 0) i) ∧
    (Radix.RadixSort false false mcs.length 0 32 s s' ∨ s' = Radix.seqRadixSort false false mcs.length 0 32 s) ∧
    sorted.length = mcs.length ∧ ∀ k, k < mcs.length → s' (.out k) = .elt (sorted.getD k (0, 0)).1 (sorted.getD k (0, 0)).2

/-- The lengths of the arrays for `n` primitives, lines 836-852. -/
def Arr.size (n : Nat) : Arr → Nat
  | .tPars | .tLcs | .tRcs | .tLs | .tRs | .tDst => n - 1
  | .lPars | .lLcas | .pInds | .lInds => n
  | .lDepths => n + 1
  | .aux | .parents | .levels => n * 2 - 1

/-- Lines 903-978: the kernels, on arrays with any contents. -/
inductive Topo (sorted : List (BitVec 32 × Nat)) (m0 : Mem) : Option Mem → Prop
  | init : Launch sorted.length (initTask (sorted.map (·.2)) (sorted.length - 1)) m0 none → Topo sorted m0 none
  | topo {m1 : Mem} : Launch sorted.length (initTask (sorted.map (·.2)) (sorted.length - 1)) m0 (some m1) →
      Launch (sorted.length - 1) (topoTask (sorted.map (·.1)) (sorted.length - 1)) m1 none → Topo sorted m0 none
  | supp {m1 m2 : Mem} {offs : List Nat} : Launch sorted.length (initTask (sorted.map (·.2)) (sorted.length - 1)) m0 (some m1) →
      Launch (sorted.length - 1) (topoTask (sorted.map (·.1)) (sorted.length - 1)) m1 (some m2) →
      Sparse.ExScan ((m2 .lDepths).map Int.toNat) offs →
      Launch sorted.length (suppTask offs m2 (sorted.length - 1)) m2 none → Topo sorted m0 none
  | leaf {m1 m2 m3 : Mem} {offs : List Nat} : Launch sorted.length (initTask (sorted.map (·.2)) (sorted.length - 1)) m0 (some m1) →
      Launch (sorted.length - 1) (topoTask (sorted.map (·.1)) (sorted.length - 1)) m1 (some m2) →
      Sparse.ExScan ((m2 .lDepths).map Int.toNat) offs →
      Launch sorted.length (suppTask offs m2 (sorted.length - 1)) m2 (some m3) →
      Launch sorted.length (leafTask offs m3) m3 none → Topo sorted m0 none
  | trunk {m1 m2 m3 m4 : Mem} {offs : List Nat} {r : Option Mem} :
      Launch sorted.length (initTask (sorted.map (·.2)) (sorted.length - 1)) m0 (some m1) →
      Launch (sorted.length - 1) (topoTask (sorted.map (·.1)) (sorted.length - 1)) m1 (some m2) →
      Sparse.ExScan ((m2 .lDepths).map Int.toNat) offs →
      Launch sorted.length (suppTask offs m2 (sorted.length - 1)) m2 (some m3) →
      Launch sorted.length (leafTask offs m3) m3 (some m4) →
      Launch (sorted.length - 1) (trunkTask offs m4 (sorted.length - 1)) m4 r → Topo sorted m0 r

variable {B : Type}

/-- The hierarchy after the kernels; its boxes are not initialized. -/
def ofMem (m : Mem) (bvs : List B) : Bvh B := ⟨bvs, m .parents, (m .levels).map Int.toNat, (m .lInds).map Int.toNat, m .aux⟩

/-- `build(policy, primBvs)`, lines 810-1092, on a hierarchy `old`. -/
inductive BuildRun (old : Bvh B) (prims : List B) (merge : B → B → B) : Refitted B → Prop
  | empty : prims.length = 0 → BuildRun old prims merge (.ok old)
  | few : 0 < prims.length → prims.length ≤ 2 → BuildRun old prims merge
      (.ok { old with bvs := prims, leafInds := List.range prims.length, aux := (List.range prims.length).map fun i : Nat => (i : Int) })
  | bad {mcs : List (BitVec 32)} {sorted : List (BitVec 32 × Nat)} {m0 : Mem} : 2 < prims.length → mcs.length = prims.length → SortRun mcs sorted →
      (∀ a, (m0 a).length = a.size prims.length) → Topo sorted m0 none → BuildRun old prims merge .bad
  | refit {mcs : List (BitVec 32)} {sorted : List (BitVec 32 × Nat)} {m0 m : Mem} {bvs : List B} {r : Refitted B} : 2 < prims.length →
      mcs.length = prims.length → SortRun mcs sorted → (∀ a, (m0 a).length = a.size prims.length) → Topo sorted m0 (some m) →
      bvs.length = prims.length * 2 - 1 → RefitRun (ofMem m bvs) prims merge r → BuildRun old prims merge r

end Verif.Bvh
