import Verif.Model.BvhBuild
/-!
Model of `LBvh::buildRefit`, `include/zensim/container/Bvh.hpp` lines 339-466 and 1094-1226 (line numbers refer to this file), with the
sequential policy: the tasks of a kernel run one after the other.

Simplifications: as in `Model/BvhBuild`; the sorted codes are given (`sorted`), sorting is modelled there.  Arrays start with the value
`g` (their contents are indeterminate in the code).  `none` is an access out of bounds.
-/
namespace Verif.Bvh
open Verif.Phase

variable {B : Type}

/-- Writing an array. -/
def put? {A : Type} (l : List A) (i : Int) (v : A) : Option (List A) := (at? l i).map fun _ => l.set i.toNat v

/-- The arrays as a table. -/
abbrev Tab := List (List Int)
def Tab.mem (t : Tab) : Mem := fun a => t.getD a.ctorIdx []
def Mem.tab (m : Mem) : Tab :=
  [m .tPars, m .tLcs, m .tRcs, m .tLs, m .tRs, m .tDst, m .lPars, m .lLcas, m .pInds, m .lDepths, m .aux, m .parents, m .levels, m .lInds]

/-- The arrays of the kernel and the boxes of the inner nodes. -/
structure Trunk (B : Type) where
  t : Tab
  flags : List Int
  tBvs : List B

def Trunk.get (s : Trunk B) (a : Arr) (i : Int) : Option Int := at? (s.t.mem a) i
def Trunk.set (s : Trunk B) (a : Arr) (i v : Int) : Option (Trunk B) := (put? (s.t.mem a) i v).map fun l => { s with t := s.t.set a.ctorIdx l }

/-- `_build_init_split_location`, lines 340-350. -/
def splitAt (mcs : List (BitVec 32)) (id : Nat) : Nat :=
  if id + 1 ≠ mcs.length then 32 - countLz (mcs.getD id 0 ^^^ mcs.getD (id + 1) 0) else 33

/-- `if (l >= 0) mark = splits[l] < splits[r]; else mark = false;`, lines 361-363 and 398-401. -/
def isRight (splits : List Nat) (l r : Int) : Option Bool :=
  if 0 ≤ l then (at? splits l).bind fun a => (at? splits r).map fun b => decide (a < b) else some false

/-- A box of a child, lines 381-382. -/
def childBox (s : Trunk B) (prims : List B) (inds : List Nat) (numTrunk c : Int) : Option B :=
  if numTrunk ≤ c then (at? inds (c - numTrunk)).bind fun p : Nat => prims[p]? else at? s.tBvs c

/-- The box of a node from those of its children, lines 378-388. -/
def joinBox (prims : List B) (inds : List Nat) (merge : B → B → B) (numTrunk cur : Int) (s : Trunk B) : Option (Trunk B) :=
  (s.get .tLcs cur).bind fun lc => (s.get .tRcs cur).bind fun rc =>
    (childBox s prims inds numTrunk lc).bind fun lb => (childBox s prims inds numTrunk rc).bind fun rb =>
    (put? s.tBvs cur (merge lb rb)).map fun bvs => { s with tBvs := bvs }

/-- `node` becomes a child of `par`, lines 367-375 and 409-420. -/
def attach (mark : Bool) (par node l r : Int) (s : Trunk B) : Option (Trunk B) :=
  if mark then (s.set .tRcs par node).bind fun s => s.set .tRs par r else (s.set .tLcs par node).bind fun s => s.set .tLs par l

/-- The rest of the body of the loop, lines 391-420: the parent, unless this is the root. -/
def ascend (splits : List Nat) (numTrunk cur : Int) (s : Trunk B) : Option (Trunk B × Option Int) :=
  (s.get .tLs cur).bind fun l1 => (s.get .tRs cur).bind fun r =>
    let l := l1 - 1
    (s.set .lLcas (l + 1) cur).bind fun s => (s.get .lDepths (l + 1)).bind fun d => (s.set .lDepths (l + 1) (d + 1)).bind fun s =>
    (isRight splits l r).bind fun mark =>
    if l + 1 = 0 ∧ r = numTrunk then (s.set .tPars cur (-1)).map fun s => (s, none)
    else
      let par := if mark then l else r
      (s.set .tPars cur par).bind fun s => (attach mark par cur (l + 1) r s).map fun s => (s, some par)

/-- `while (atomic_add(execTag, &flags[cur], 1) == 1)`, lines 377-422. -/
def climb (prims : List B) (inds : List Nat) (merge : B → B → B) (splits : List Nat) (numTrunk : Int) : Nat → Int → Trunk B → Option (Trunk B)
  | 0, _, _ => none
  | fuel + 1, cur, s => (at? s.flags cur).bind fun f =>
    if f ≠ 1 then some { s with flags := s.flags.set cur.toNat (f + 1) }
    else (joinBox prims inds merge numTrunk cur { s with flags := s.flags.set cur.toNat (f + 1) }).bind fun s => (ascend splits numTrunk cur s).bind fun
      | (s, none) => some s
      | (s, some par) => climb prims inds merge splits numTrunk fuel par s

/-- `_build_build_topo_and_refit`, lines 351-424. -/
def topoRefitTask (prims : List B) (inds : List Nat) (merge : B → B → B) (splits : List Nat) (numTrunk : Nat) (s : Trunk B) (idx : Nat) : Option (Trunk B) :=
  (s.set .lLcas idx (idx + numTrunk)).bind fun s => (s.set .lDepths idx 1).bind fun s =>
  let l : Int := idx - 1
  let r : Int := idx
  (isRight splits l r).bind fun mark =>
  let cur := if mark then l else r
  (s.set .lPars idx cur).bind fun s =>
  (attach mark cur (idx + numTrunk) idx idx s).bind fun s =>
  climb prims inds merge splits numTrunk (numTrunk + 1) cur s

/-- A kernel of `Model/BvhBuild` with the sequential policy. -/
def inOrder (n : Nat) (task : Mem → Nat → Option (List Op)) (t : Tab) : Option Tab :=
  (List.range n).foldlM (fun t k => (task t.mem k).bind fun ops => ops.foldlM (fun t op => (op.run t.mem).map Mem.tab) t) t

/-- The boxes in their positions, lines 440 and 452. -/
def putBoxes (prims tBvs : List B) (bvs : List B) (m : Mem) : Option (List B) :=
  ((List.range prims.length).foldlM (fun bvs k => (m .lInds)[k]?.bind fun dst => (m .pInds)[k]?.bind fun p => (at? prims p).bind fun b => put? bvs dst b) bvs).bind
    fun bvs => (List.range (prims.length - 1)).foldlM (fun bvs k => (m .tDst)[k]?.bind fun dst => tBvs[k]?.bind fun b => put? bvs dst b) bvs

/-- `buildRefit(policy, primBvs)`, lines 1174-1225, after the kernel that computes `splits`: the leaves are written by the kernel
`leafTask`, the inner nodes by `trunkTask`, as in `build` (the kernels of lines 425-466 do the same and write the boxes). -/
def refitFrom (prims : List B) (merge : B → B → B) (inds splits : List Nat) (g : Int) (b : B) : Option (Bvh B) :=
  let n := inds.length
  (inOrder n (fun _ => initTask inds (n - 1)) (Mem.tab fun a => List.replicate (a.size n) g)).bind fun t1 =>
  ((List.range n).foldlM (topoRefitTask prims inds merge splits (n - 1)) (⟨t1, List.replicate (n - 1) 0, List.replicate (n - 1) b⟩ : Trunk B)).bind fun s =>
  let offs := (List.range (n + 1)).map fun k => (((s.t.mem .lDepths).map Int.toNat).take k).sum
  (inOrder n (fun m => suppTask offs m (n - 1)) s.t).bind fun t2 =>
  (inOrder n (fun m => leafTask offs m) t2).bind fun t3 =>
  (inOrder (n - 1) (fun m => trunkTask offs m (n - 1)) t3).bind fun t4 =>
  (putBoxes prims s.tBvs (List.replicate (n * 2 - 1) b) t4.mem).map fun bvs => ofMem t4.mem bvs

/-- `buildRefit(policy, primBvs)` for more than two primitives with sorted codes `sorted`. -/
def buildRefit (prims : List B) (merge : B → B → B) (sorted : List (BitVec 32 × Nat)) (g : Int) (b : B) : Option (Bvh B) :=
  refitFrom prims merge (sorted.map (·.2)) ((List.range sorted.length).map (splitAt (sorted.map (·.1)))) g b

end Verif.Bvh
