/-!
Model of the queries of `LBvh`, `include/zensim/container/Bvh.hpp` (line numbers refer to this file), and of the boxes,
`include/zensim/geometry/AnalyticLevelSet.h`.  The queries of `BvhViewLite`, `include/zensim/py_interop/BvhView.hpp` lines 30-205, are the same
text apart from the names of the integer types.

Simplifications:
* `levels` and `leafInds` hold natural numbers: the code only stores counts and positions in them.
* coordinates are elements of a type with decidable comparisons instead of floating-point numbers (comparisons, minimum
  and maximum of numbers that are not NaN do not round).
* loops have fuel; `stuck` means that it ran out.  `bad` is an access outside an array.
-/
namespace Verif.Bvh

/-! ## Boxes -/

/-- `AABBBox<dim, T>`. -/
structure Box (dim : Nat) (T : Type) where
  lo : Fin dim → T
  hi : Fin dim → T

variable {dim : Nat} {T : Type}

/-- `overlaps(a, b)`, AnalyticLevelSet.h lines 262-266. -/
def overlaps [LT T] [DecidableLT T] (a b : Box dim T) : Bool :=
  (List.finRange dim).all fun d => !(decide (a.hi d < b.lo d) || decide (b.hi d < a.lo d))

/-- `zs::min(x, y)`, `zs::max(x, y)`: ZpcMathUtils.hpp lines 478-520, 524-566 (`fmin`, `fmax`). -/
def minOf [LT T] [DecidableLT T] (x y : T) : T := if y < x then y else x
def maxOf [LT T] [DecidableLT T] (x y : T) : T := if x < y then y else x

/-- `merge(box, p)`, AnalyticLevelSet.h lines 282-290. -/
def mergePoint [LT T] [DecidableLT T] (b : Box dim T) (p : Fin dim → T) : Box dim T :=
  ⟨fun d => minOf (b.lo d) (p d), fun d => maxOf (b.hi d) (p d)⟩

/-- Lines 480-483: the box of a node from the boxes of its children. -/
def mergeBox [LT T] [DecidableLT T] (b r : Box dim T) : Box dim T := mergePoint (mergePoint b r.lo) r.hi

/-! ## The hierarchy -/

/-- `LBvh`, lines 173-174. -/
structure Bvh (B : Type) where
  bvs : List B
  parents : List Int
  levels : List Nat
  leafInds : List Nat
  aux : List Int

variable {B : Type}

/-- `getNumNodes`, lines 126-129. -/
def Bvh.numNodes (t : Bvh B) : Nat := if 2 < t.leafInds.length then t.leafInds.length * 2 - 1 else t.leafInds.length

/-- Reading an array at an index of type `index_type`. -/
def at? {A : Type} (l : List A) (i : Int) : Option A := if 0 ≤ i then l[i.toNat]? else none

inductive Outcome (S : Type) where
  | ok (s : S)
  | bad
  | stuck
deriving DecidableEq, Repr

/-- What a query does: whether it descends into a node with a given box, and what it does at a leaf: nothing, or a call with
the number of the primitive that returns whether to stop. -/
structure Query (B S : Type) where
  inner : S → B → Bool
  leaf : S → B → Option (Int → S × Bool)

variable {S : Type}

/-- `for (; level; --level, ++node) if (..) break;`, lines 539-540, 571-572, 606-607, 643-644, 679-680, 715-716, 742-743. -/
def descend (t : Bvh B) (q : Query B S) (s : S) : Nat → Int → Option (Nat × Int)
  | 0, node => some (0, node)
  | level + 1, node => (at? t.bvs node).bind fun b => if q.inner s b then descend t q s level (node + 1) else some (level + 1, node)

/-- `while (node != ed && node != _numNodes)`, lines 536-547, 568-579, 603-614, 640-655, 676-693, 712-729, 739-750. -/
def walk (t : Bvh B) (q : Query B S) (ed : Int) : Nat → Int → S → Outcome S
  | 0, _, _ => .stuck
  | fuel + 1, node, s =>
    if node = ed ∨ node = t.numNodes then .ok s
    else match at? t.levels node with
      | none => .bad
      | some level => match descend t q s level node with
        | none => .bad
        | some (0, node) => match at? t.bvs node with
          | none => .bad
          | some b => match q.leaf s b with
            | none => walk t q ed fuel (node + 1) s
            | some g => match at? t.aux node with
              | none => .bad
              | some p => if (g p).2 then .ok (g p).1 else walk t q ed fuel (node + 1) (g p).1
        | some (_ + 1, node) => match at? t.aux node with
          | none => .bad
          | some e => walk t q ed fuel e s

/-- The loop over at most two boxes, lines 529-534, 556-561, 591-596, 626-633, 663-673, 697-708: `for (i = st; i != nl; ++i)`. -/
def scan (t : Bvh B) (q : Query B S) : Nat → Nat → S → Outcome S
  | 0, i, s => if i = t.numNodes then .ok s else .stuck
  | fuel + 1, i, s =>
    if i = t.numNodes then .ok s
    else match t.bvs[i]? with
      | none => .bad
      | some b => match q.leaf s b with
        | none => scan t q fuel (i + 1) s
        | some g => if (g i).2 then .ok (g i).1 else scan t q fuel (i + 1) (g i).1

/-- A query from the root: `ray_intersect`, `find_nearest`, `find_nearest_point`, `iter_neighbors`. -/
def query (t : Bvh B) (q : Query B S) (fuel : Nat) (s : S) : Outcome S :=
  if t.numNodes ≤ 2 then scan t q fuel 0 s else walk t q (-1) fuel 0 s

/-- `iter_neighbors(bv, f)`, lines 662-694. -/
def iterNeighbors [LT T] [DecidableLT T] (t : Bvh (Box dim T)) (bv : Box dim T) (f : S → Int → S × Bool) (fuel : Nat) (s : S) : Outcome S :=
  query t ⟨fun _ b => overlaps b bv, fun s b => if overlaps b bv then some (f s) else none⟩ fuel s

/-- `self_iter_neighbors(leafId, f)`, lines 696-730. -/
def selfIterNeighbors [LT T] [DecidableLT T] (t : Bvh (Box dim T)) (leafId : Nat) (f : S → Int → S × Bool) (fuel : Nat) (s : S) : Outcome S :=
  if t.numNodes ≤ 2 then
    match t.bvs[leafId]? with
    | none => .bad
    | some bv => scan t ⟨fun _ b => overlaps b bv, fun s b => if overlaps b bv then some (f s) else none⟩ fuel (leafId + 1) s
  else match t.leafInds[leafId]? with
    | none => .bad
    | some node => match t.bvs[node]? with
      | none => .bad
      | some bv => walk t ⟨fun _ b => overlaps b bv, fun s b => if overlaps b bv then some (f s) else none⟩ (-1) fuel node s

/-- `iter_neighbors(bv, node, f)`, lines 732-751. -/
def iterTreelet [LT T] [DecidableLT T] (t : Bvh (Box dim T)) (bv : Box dim T) (node : Nat) (f : S → Int → S) (fuel : Nat) (s : S) : Outcome S :=
  let q : Query (Box dim T) S := ⟨fun _ b => overlaps b bv, fun s b => if overlaps b bv then some (fun i => (f s i, false)) else none⟩
  if t.numNodes ≤ 2 then
    match t.bvs[node]? with
    | none => .bad
    | some b => .ok (if overlaps b bv then f s node else s)
  else match t.levels[node]? with
    | none => .bad
    | some 0 => walk t q (node + 1) fuel node s
    | some (_ + 1) => match t.aux[node]? with
      | none => .bad
      | some ed => walk t q ed fuel node s

/-- `find_nearest(p, f, cap)`, lines 550-584, 585-619: the state is `(dist, idx)` and whatever `f` keeps; `d` is the distance
to a box. -/
def findNearest {D : Type} [LT D] [DecidableLT D] (t : Bvh B) (d : B → D) (dist : S → D) (f : S → Int → S) (fuel : Nat) (s : S) : Outcome S :=
  query t ⟨fun s b => !decide (dist s < d b), fun s b => if d b < dist s then some (fun i => (f s i, false)) else none⟩ fuel s

/-- `find_nearest_point(p, dist2, idx)`, lines 620-660, without the square root at the end: the state is `(dist2, idx)`; `dn` is
the square of the distance to a box (0 inside), `dl` the square of the distance to the lower corner of the box of a leaf. -/
def findNearestPoint {D : Type} [LT D] [DecidableLT D] (t : Bvh B) (dn dl : B → D) (fuel : Nat) (s : D × Int) : Outcome (D × Int) :=
  query t ⟨fun s b => !decide (s.1 < dn b), fun s b => if dl b < s.1 then some (fun i => ((dl b, i), false)) else none⟩ fuel s

/-- `ray_intersect(ro, rd, f)`, lines 525-548; `hit` is `ray_box_intersect`. -/
def rayIntersect (t : Bvh B) (hit : B → Bool) (f : S → Int → S) (fuel : Nat) (s : S) : Outcome S :=
  query t ⟨fun _ b => hit b, fun s b => if hit b then some (fun i => (f s i, false)) else none⟩ fuel s

/-! ## `refit` -/

/-- What a task of `_refit_bottom_up`, lines 467-491, does next. -/
inductive Pc (B : Type) where
  | start
  | arrive (node : Int)
  | left (node : Int)
  | right (node : Int) (b : B)
  | put (node : Int) (b : B)
  | done

/-- The arrays that change and what every task does next. -/
structure Refit (B : Type) where
  bvs : List B
  flags : List Nat
  pc : Nat → Pc B

def Refit.goto (s : Refit B) (k : Nat) (pc : Pc B) : Refit B := { s with pc := fun j => if j = k then pc else s.pc j }

/-- `node = parents[node]; while (node != -1)`, lines 475-476, 488-489. -/
def Refit.up (t : Bvh B) (s : Refit B) (k : Nat) (node : Int) : Option (Refit B) :=
  (at? t.parents node).map fun p => s.goto k (if p = -1 then .done else .arrive p)

/-- The right child, line 479. -/
def rightChild (t : Bvh B) (node : Int) : Option Int :=
  (at? t.levels (node + 1)).bind fun l => if l ≠ 0 then at? t.aux (node + 1) else some (node + 2)

/-- `orderedBvs[node] = bv`. -/
def putBox (bvs : List B) (node : Int) (b : B) : Option (List B) := (at? bvs node).map fun _ => bvs.set node.toNat b

/-- One step of task `k`; `none` is an access out of bounds.  Each step accesses at most one cell of the arrays that change. -/
def Refit.step (t : Bvh B) (prims : List B) (merge : B → B → B) (s : Refit B) (k : Nat) : Option (Refit B) :=
  match s.pc k with
  | .start => t.leafInds[k]?.bind fun node => (at? t.aux node).bind fun p => (at? prims p).bind fun b =>
      (putBox s.bvs node b).bind fun bvs => Refit.up t { s with bvs := bvs } k node
  | .arrive node => (at? s.flags node).map fun f =>
      if f = 0 then { s with flags := s.flags.set node.toNat 1 }.goto k .done else s.goto k (.left node)
  | .left node => (at? s.bvs (node + 1)).map fun b => s.goto k (.right node b)
  | .right node b => (rightChild t node).bind fun rc => (at? s.bvs rc).map fun r => s.goto k (.put node (merge b r))
  | .put node b => (putBox s.bvs node b).bind fun bvs => Refit.up t { s with bvs := bvs } k node
  | .done => some s

/-- Steps of the tasks `0 .. n-1` in any order; `none` is an access out of bounds. -/
inductive Refits (t : Bvh B) (prims : List B) (merge : B → B → B) (n : Nat) : Refit B → Option (Refit B) → Prop
  | refl (s : Refit B) : Refits t prims merge n s (some s)
  | step {s s' : Refit B} {r : Option (Refit B)} (k : Nat) : k < n → s.step t prims merge k = some s' → Refits t prims merge n s' r →
      Refits t prims merge n s r
  | bad {s : Refit B} (k : Nat) : k < n → s.step t prims merge k = none → Refits t prims merge n s none

def Refit.finished (n : Nat) (s : Refit B) : Prop := ∀ k, k < n → s.pc k = .done

/-- How a call of `refit` ends. -/
inductive Refitted (B : Type) where
  | throws
  | bad
  | ok (t : Bvh B)

/-- `refit(policy, primBvs)`, lines 1228-1259. -/
inductive RefitRun (t : Bvh B) (prims : List B) (merge : B → B → B) : Refitted B → Prop
  | throws : prims.length ≠ t.leafInds.length → RefitRun t prims merge .throws
  | few : prims.length = t.leafInds.length → t.leafInds.length ≤ 2 → RefitRun t prims merge (.ok { t with bvs := prims })
  | bad : prims.length = t.leafInds.length → 2 < t.leafInds.length →
      Refits t prims merge t.leafInds.length ⟨t.bvs, List.replicate t.numNodes 0, fun _ => .start⟩ none → RefitRun t prims merge .bad
  | ok {s : Refit B} : prims.length = t.leafInds.length → 2 < t.leafInds.length →
      Refits t prims merge t.leafInds.length ⟨t.bvs, List.replicate t.numNodes 0, fun _ => .start⟩ (some s) →
      s.finished t.leafInds.length → RefitRun t prims merge (.ok { t with bvs := s.bvs })

end Verif.Bvh
