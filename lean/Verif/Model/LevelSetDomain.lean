import Verif.Model.Buckets

/-!
Model of the functions that change the domain of a sparse level set, `include/zensim/geometry/LevelSetUtils.tpp`, for grids in space that are not staggered.

Exact arithmetic; coordinates do not overflow.  The table (`bht`, C36 and C37) is the list of the active keys and the function of `query`; its count is the length of the list.  `resize` of the table and of the grid keep what
they hold (C37, C29), and no insertion fails.  The loops over blocks can run in any order: an iteration is one insertion, or writes to cells of its own.
-/
namespace Verif.LevelSetDomain

open Buckets

variable {K : Type} [Field K] [LinearOrder K]

structure Table where
  keys : List (Key 3)
  find : Key 3 → Option Nat

/-- The level set; `data` is the channel of a cell of a block. -/
structure Ls (K : Type) where
  table : Table
  data : Nat → Nat → Nat → K

/-- A property of the grid. -/
structure Prop' where
  name : String
  offset : Nat
  size : Nat

/-- `mark_level_set`, lines 114-130, of one cell: the loop ends at the first channel that is active. -/
def markCell (props : List Prop') (background threshold : K) (v : Nat → K) : Bool :=
  props.any fun p =>
    if p.name == "mark" then false
    else
      let isSdf := p.name == "sdf"
      (List.range p.size).any fun chn => (decide (|v (p.offset + chn)| > threshold) && !isSdf) || (decide (v (p.offset + chn) < background + threshold) && isSdf)

/-- `mark_level_set`, lines 77-132; `mark` is the channel with the marks. -/
def markLevelSet (props : List Prop') (mark : Nat) (background threshold : K) (data : Nat → Nat → Nat → K) : Nat → Nat → Nat → K :=
  fun b c ch => if ch = mark then (if markCell props background threshold (data b c) then 1 else 0) else data b c ch

/-- Lines 169-177: the blocks with a marked cell. -/
def marks (blockSize mark : Nat) (data : Nat → Nat → Nat → K) (b : Nat) : Nat := if (List.range blockSize).any fun c => decide (data b c mark ≠ 0) then 1 else 0

/-- Lines 184-190, in the order `o`. -/
def preserved (marks : Nat → Nat) (newNbs : Nat) (junk : Nat → Nat) (o : List Nat) : Option (List Nat) :=
  o.foldlM (fun l b => if marks b ≠ 0 then (if Bvtt.offsets marks b < l.length then some (l.set (Bvtt.offsets marks b) b) else none) else some l) ((List.range newNbs).map junk)

/-- Insertion of a key with an index, `container/Bht.hpp`, lines 612-664; the count does not change. -/
def insertAt (find : Key 3 → Option Nat) (k : Key 3) (i : Nat) : Key 3 → Option Nat := fun k' => if k' = k ∧ (find k).isNone then some i else find k'

/-- Lines 199-207, in the order `o`; the count is written by the first iteration. -/
def shrinkTable (t : Table) (blocknos : List Nat) (o : List Nat) : Table :=
  let r := o.foldl (fun (r : Table × Nat) i =>
    let blockid := t.keys.getD (blocknos.getD i 0) 0
    (⟨r.1.keys.set i blockid, insertAt r.1.find blockid i⟩, if i = 0 then blocknos.length else r.2)) (⟨t.keys, fun _ => none⟩, t.keys.length)
  ⟨r.1.keys.take r.2, r.1.find⟩

/-- `refit_level_set_domain`, lines 165-238; `o1` and `o2` are the orders of the loops. -/
def refit (props : List Prop') (blockSize mark : Nat) (background threshold : K) (ls : Ls K) (junk : Nat → Nat) (o1 o2 : List Nat) : Option (Ls K) :=
  let nbs := ls.table.keys.length
  let data := markLevelSet props mark background threshold ls.data
  let m := marks blockSize mark data
  let newNbs := Bvtt.offsets m nbs
  (preserved m newNbs junk o1).map fun blocknos => ⟨shrinkTable ls.table blocknos o2, fun b => if b < newNbs then data (blocknos.getD b 0) else data b⟩

/-- Insertion of a key (C36). -/
def insertKey (t : Table) (k : Key 3) : Table := if (t.find k).isSome then t else ⟨t.keys ++ [k], fun k' => if k' = k then some t.keys.length else t.find k'⟩

/-- Lines 287-306, in the order `o`. -/
def spawn (side : Int) (base : Nat) (t : Table) (o : List Nat) : Table :=
  o.foldl (fun t' b => around.foldl (fun t' loc => insertKey t' (t.keys.getD (b + base) 0 + fun a => (loc a - 1) * side)) t') t

/-- Lines 309-320. -/
def initBlocks (sdf : Option Nat) (background dx : K) (nbs newNbs : Nat) (data : Nat → Nat → Nat → K) : Nat → Nat → Nat → K :=
  fun b c ch => if nbs ≤ b ∧ b < newNbs then (if sdf = some ch then background + dx else 0) else data b c ch

/-- `extend_level_set_domain`, lines 281-324; `ord` gives the orders of the loops. -/
def extend (side : Int) (sdf : Option Nat) (background dx : K) (ord : Nat → List Nat → List Nat) : Nat → Nat → Ls K → Ls K
  | 0, _, ls => ls
  | nlayers + 1, base, ls =>
    let nbs := ls.table.keys.length
    let table := spawn side base ls.table (ord nlayers (List.range (nbs - base)))
    extend side sdf background dx ord nlayers nbs ⟨table, initBlocks sdf background dx nbs table.keys.length ls.data⟩

end Verif.LevelSetDomain
